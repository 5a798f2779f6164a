import Verif.UnminifyChain
import Verif.UnminifyTree
/-
The tokens that `unminify_code` puts out are those of the tree without empty statements and shorthands.
-/
set_option linter.unusedVariables false
set_option linter.unusedSimpArgs false
set_option linter.unusedSectionVars false
set_option linter.unusedTactic false
namespace Verif.Unmin
open Syntax Mini
open Long (fitE fitEs fitIts fitS fitI fitT fitB ellE ellEs ellIts ellS ellI ellT ellB noSemi)
open Paren (Op Lang)

/-- The kinds of the tokens. -/
def kms : List M → List K
  | [] => []
  | .t k :: ms => k :: kms ms
  | .nl :: ms => kms ms

theorem kms_append : ∀ a b : List M, kms (a ++ b) = kms a ++ kms b
  | [], _ => rfl
  | .t _ :: a, b => congrArg _ (kms_append a b)
  | .nl :: a, b => kms_append a b

theorem kus_plain : ∀ ms : List M, kus (plain ms) = kms ms
  | [] => rfl
  | .t _ :: ms => congrArg _ (kus_plain ms)
  | .nl :: ms => kus_plain ms

theorem kms_brk (sh : Bool) (d : Nested) : kms (brk sh d) = [] := by unfold brk; split <;> rfl

theorem sepEs_l (es : Exs) : sepEs (lEs es) = sepEs es := by cases es <;> rfl
theorem sepIts_l (its : Its) : sepIts (lIts its) = sepIts its := by cases its <;> rfl
theorem eqEs_l (es : Exs) : eqEs (lEs es) = eqEs es := by cases es <;> rfl

theorem kus_if (c : Prop) [Decidable c] : kus (if c then [newline] else []) = [] := by split <;> rfl

variable (ind : List Nat)

mutual
theorem kE : ∀ (x : Ex), ∀ (sh : Bool), fE false .pico8 sh x → ellE x = true → ∀ (sh' : Bool) (n : Nat), kus (uE ind n x) = kms (prE .kThen sh' (lE x))
  | .var x => by
    intro sh h hl sh' n
    simp only [uE, uEs, uIts, uS, uI, uT, uB, uC, lE, lEs, lIts, lS, lI, lT, lB, unG, prE, prEs, prIts, prS, prI, prT, prB, fE, fEs, fIts, fS, fI, fT, fB, ellE, ellEs, ellIts, ellS, ellI, ellT, ellB, Bool.and_eq_true, kus, kus_append, kms, kms_append, kus_plain, kms_brk, sepEs_l, sepIts_l, eqEs_l, kus_if, List.append_nil, List.nil_append, List.append_assoc, List.cons_append, reduceIte] at *
    all_goals grind
  | .num x => by
    intro sh h hl sh' n
    simp only [uE, uEs, uIts, uS, uI, uT, uB, uC, lE, lEs, lIts, lS, lI, lT, lB, unG, prE, prEs, prIts, prS, prI, prT, prB, fE, fEs, fIts, fS, fI, fT, fB, ellE, ellEs, ellIts, ellS, ellI, ellT, ellB, Bool.and_eq_true, kus, kus_append, kms, kms_append, kus_plain, kms_brk, sepEs_l, sepIts_l, eqEs_l, kus_if, List.append_nil, List.nil_append, List.append_assoc, List.cons_append, reduceIte] at *
    all_goals grind
  | .str x => by
    intro sh h hl sh' n
    simp only [uE, uEs, uIts, uS, uI, uT, uB, uC, lE, lEs, lIts, lS, lI, lT, lB, unG, prE, prEs, prIts, prS, prI, prT, prB, fE, fEs, fIts, fS, fI, fT, fB, ellE, ellEs, ellIts, ellS, ellI, ellT, ellB, Bool.and_eq_true, kus, kus_append, kms, kms_append, kus_plain, kms_brk, sepEs_l, sepIts_l, eqEs_l, kus_if, List.append_nil, List.nil_append, List.append_assoc, List.cons_append, reduceIte] at *
    all_goals grind
  | .cst x => by
    intro sh h hl sh' n
    simp only [uE, uEs, uIts, uS, uI, uT, uB, uC, lE, lEs, lIts, lS, lI, lT, lB, unG, prE, prEs, prIts, prS, prI, prT, prB, fE, fEs, fIts, fS, fI, fT, fB, ellE, ellEs, ellIts, ellS, ellI, ellT, ellB, Bool.and_eq_true, kus, kus_append, kms, kms_append, kus_plain, kms_brk, sepEs_l, sepIts_l, eqEs_l, kus_if, List.append_nil, List.nil_append, List.append_assoc, List.cons_append, reduceIte] at *
    all_goals grind
  | .vararg => by
    intro sh h hl sh' n
    simp only [uE, uEs, uIts, uS, uI, uT, uB, uC, lE, lEs, lIts, lS, lI, lT, lB, unG, prE, prEs, prIts, prS, prI, prT, prB, fE, fEs, fIts, fS, fI, fT, fB, ellE, ellEs, ellIts, ellS, ellI, ellT, ellB, Bool.and_eq_true, kus, kus_append, kms, kms_append, kus_plain, kms_brk, sepEs_l, sepIts_l, eqEs_l, kus_if, List.append_nil, List.nil_append, List.append_assoc, List.cons_append, reduceIte] at *
    all_goals grind
  | .func ps b => by
    have ih1 := kB b
    intro sh h hl sh' n
    simp only [uE, uEs, uIts, uS, uI, uT, uB, uC, lE, lEs, lIts, lS, lI, lT, lB, unG, prE, prEs, prIts, prS, prI, prT, prB, fE, fEs, fIts, fS, fI, fT, fB, ellE, ellEs, ellIts, ellS, ellI, ellT, ellB, Bool.and_eq_true, kus, kus_append, kms, kms_append, kus_plain, kms_brk, sepEs_l, sepIts_l, eqEs_l, kus_if, List.append_nil, List.nil_append, List.append_assoc, List.cons_append, reduceIte] at *
    all_goals grind
  | .group e => by
    have ih1 := kE e
    intro sh h hl sh' n
    simp only [uE, uEs, uIts, uS, uI, uT, uB, uC, lE, lEs, lIts, lS, lI, lT, lB, unG, prE, prEs, prIts, prS, prI, prT, prB, fE, fEs, fIts, fS, fI, fT, fB, ellE, ellEs, ellIts, ellS, ellI, ellT, ellB, Bool.and_eq_true, kus, kus_append, kms, kms_append, kus_plain, kms_brk, sepEs_l, sepIts_l, eqEs_l, kus_if, List.append_nil, List.nil_append, List.append_assoc, List.cons_append, reduceIte] at *
    all_goals grind
  | .un o e => by
    have ih1 := kE e
    intro sh h hl sh' n
    simp only [uE, uEs, uIts, uS, uI, uT, uB, uC, lE, lEs, lIts, lS, lI, lT, lB, unG, prE, prEs, prIts, prS, prI, prT, prB, fE, fEs, fIts, fS, fI, fT, fB, ellE, ellEs, ellIts, ellS, ellI, ellT, ellB, Bool.and_eq_true, kus, kus_append, kms, kms_append, kus_plain, kms_brk, sepEs_l, sepIts_l, eqEs_l, kus_if, List.append_nil, List.nil_append, List.append_assoc, List.cons_append, reduceIte] at *
    all_goals grind
  | .bin o l r => by
    have ih1 := kE l
    have ih2 := kE r
    intro sh h hl sh' n
    simp only [uE, uEs, uIts, uS, uI, uT, uB, uC, lE, lEs, lIts, lS, lI, lT, lB, unG, prE, prEs, prIts, prS, prI, prT, prB, fE, fEs, fIts, fS, fI, fT, fB, ellE, ellEs, ellIts, ellS, ellI, ellT, ellB, Bool.and_eq_true, kus, kus_append, kms, kms_append, kus_plain, kms_brk, sepEs_l, sepIts_l, eqEs_l, kus_if, List.append_nil, List.nil_append, List.append_assoc, List.cons_append, reduceIte] at *
    all_goals grind
  | .member b x => by
    have ih1 := kE b
    intro sh h hl sh' n
    simp only [uE, uEs, uIts, uS, uI, uT, uB, uC, lE, lEs, lIts, lS, lI, lT, lB, unG, prE, prEs, prIts, prS, prI, prT, prB, fE, fEs, fIts, fS, fI, fT, fB, ellE, ellEs, ellIts, ellS, ellI, ellT, ellB, Bool.and_eq_true, kus, kus_append, kms, kms_append, kus_plain, kms_brk, sepEs_l, sepIts_l, eqEs_l, kus_if, List.append_nil, List.nil_append, List.append_assoc, List.cons_append, reduceIte] at *
    all_goals grind
  | .index b k => by
    have ih1 := kE b
    have ih2 := kE k
    intro sh h hl sh' n
    simp only [uE, uEs, uIts, uS, uI, uT, uB, uC, lE, lEs, lIts, lS, lI, lT, lB, unG, prE, prEs, prIts, prS, prI, prT, prB, fE, fEs, fIts, fS, fI, fT, fB, ellE, ellEs, ellIts, ellS, ellI, ellT, ellB, Bool.and_eq_true, kus, kus_append, kms, kms_append, kus_plain, kms_brk, sepEs_l, sepIts_l, eqEs_l, kus_if, List.append_nil, List.nil_append, List.append_assoc, List.cons_append, reduceIte] at *
    all_goals grind
  | .table its => by
    have ih1 := kIts its
    intro sh h hl sh' n
    simp only [uE, uEs, uIts, uS, uI, uT, uB, uC, lE, lEs, lIts, lS, lI, lT, lB, unG, prE, prEs, prIts, prS, prI, prT, prB, fE, fEs, fIts, fS, fI, fT, fB, ellE, ellEs, ellIts, ellS, ellI, ellT, ellB, Bool.and_eq_true, kus, kus_append, kms, kms_append, kus_plain, kms_brk, sepEs_l, sepIts_l, eqEs_l, kus_if, List.append_nil, List.nil_append, List.append_assoc, List.cons_append, reduceIte] at *
    all_goals grind
  | .call b false as => by
    have ih1 := kE b
    have ih2 := kEs as
    intro sh h hl sh' n
    simp only [uE, uEs, uIts, uS, uI, uT, uB, uC, lE, lEs, lIts, lS, lI, lT, lB, unG, prE, prEs, prIts, prS, prI, prT, prB, fE, fEs, fIts, fS, fI, fT, fB, ellE, ellEs, ellIts, ellS, ellI, ellT, ellB, Bool.and_eq_true, kus, kus_append, kms, kms_append, kus_plain, kms_brk, sepEs_l, sepIts_l, eqEs_l, kus_if, List.append_nil, List.nil_append, List.append_assoc, List.cons_append, reduceIte] at *
    all_goals grind
  | .call b true as => by
    have ih1 := kE b
    have ih2 := kEs as
    intro sh h hl sh' n
    simp only [uE, uEs, uIts, uS, uI, uT, uB, uC, lE, lEs, lIts, lS, lI, lT, lB, unG, prE, prEs, prIts, prS, prI, prT, prB, fE, fEs, fIts, fS, fI, fT, fB, ellE, ellEs, ellIts, ellS, ellI, ellT, ellB, Bool.and_eq_true, kus, kus_append, kms, kms_append, kus_plain, kms_brk, sepEs_l, sepIts_l, eqEs_l, kus_if, List.append_nil, List.nil_append, List.append_assoc, List.cons_append, reduceIte] at *
    all_goals grind
  | .method b x false as => by
    have ih1 := kE b
    have ih2 := kEs as
    intro sh h hl sh' n
    simp only [uE, uEs, uIts, uS, uI, uT, uB, uC, lE, lEs, lIts, lS, lI, lT, lB, unG, prE, prEs, prIts, prS, prI, prT, prB, fE, fEs, fIts, fS, fI, fT, fB, ellE, ellEs, ellIts, ellS, ellI, ellT, ellB, Bool.and_eq_true, kus, kus_append, kms, kms_append, kus_plain, kms_brk, sepEs_l, sepIts_l, eqEs_l, kus_if, List.append_nil, List.nil_append, List.append_assoc, List.cons_append, reduceIte] at *
    all_goals grind
  | .method b x true as => by
    have ih1 := kE b
    have ih2 := kEs as
    intro sh h hl sh' n
    simp only [uE, uEs, uIts, uS, uI, uT, uB, uC, lE, lEs, lIts, lS, lI, lT, lB, unG, prE, prEs, prIts, prS, prI, prT, prB, fE, fEs, fIts, fS, fI, fT, fB, ellE, ellEs, ellIts, ellS, ellI, ellT, ellB, Bool.and_eq_true, kus, kus_append, kms, kms_append, kus_plain, kms_brk, sepEs_l, sepIts_l, eqEs_l, kus_if, List.append_nil, List.nil_append, List.append_assoc, List.cons_append, reduceIte] at *
    all_goals grind
theorem kEs : ∀ (x : Exs), ∀ (sh : Bool), fEs false .pico8 sh x → ellEs x = true → ∀ (sh' : Bool) (n : Nat), kus (uEs ind n x) = kms (prEs .kThen sh' (lEs x))
  | .nil => by
    intro sh h hl sh' n
    simp only [uE, uEs, uIts, uS, uI, uT, uB, uC, lE, lEs, lIts, lS, lI, lT, lB, unG, prE, prEs, prIts, prS, prI, prT, prB, fE, fEs, fIts, fS, fI, fT, fB, ellE, ellEs, ellIts, ellS, ellI, ellT, ellB, Bool.and_eq_true, kus, kus_append, kms, kms_append, kus_plain, kms_brk, sepEs_l, sepIts_l, eqEs_l, kus_if, List.append_nil, List.nil_append, List.append_assoc, List.cons_append, reduceIte] at *
    all_goals grind
  | .cons e es => by
    have ih1 := kE e
    have ih2 := kEs es
    intro sh h hl sh' n
    simp only [uE, uEs, uIts, uS, uI, uT, uB, uC, lE, lEs, lIts, lS, lI, lT, lB, unG, prE, prEs, prIts, prS, prI, prT, prB, fE, fEs, fIts, fS, fI, fT, fB, ellE, ellEs, ellIts, ellS, ellI, ellT, ellB, Bool.and_eq_true, kus, kus_append, kms, kms_append, kus_plain, kms_brk, sepEs_l, sepIts_l, eqEs_l, kus_if, List.append_nil, List.nil_append, List.append_assoc, List.cons_append, reduceIte] at *
    all_goals grind
theorem kIts : ∀ (x : Its), ∀ (sh : Bool), fIts false .pico8 sh x → ellIts x = true → ∀ (sh' : Bool) (n : Nat), kus (uIts ind n x) = kms (prIts .kThen sh' (lIts x))
  | .nil => by
    intro sh h hl sh' n
    simp only [uE, uEs, uIts, uS, uI, uT, uB, uC, lE, lEs, lIts, lS, lI, lT, lB, unG, prE, prEs, prIts, prS, prI, prT, prB, fE, fEs, fIts, fS, fI, fT, fB, ellE, ellEs, ellIts, ellS, ellI, ellT, ellB, Bool.and_eq_true, kus, kus_append, kms, kms_append, kus_plain, kms_brk, sepEs_l, sepIts_l, eqEs_l, kus_if, List.append_nil, List.nil_append, List.append_assoc, List.cons_append, reduceIte] at *
    all_goals grind
  | .pos e its => by
    have ih1 := kE e
    have ih2 := kIts its
    intro sh h hl sh' n
    simp only [uE, uEs, uIts, uS, uI, uT, uB, uC, lE, lEs, lIts, lS, lI, lT, lB, unG, prE, prEs, prIts, prS, prI, prT, prB, fE, fEs, fIts, fS, fI, fT, fB, ellE, ellEs, ellIts, ellS, ellI, ellT, ellB, Bool.and_eq_true, kus, kus_append, kms, kms_append, kus_plain, kms_brk, sepEs_l, sepIts_l, eqEs_l, kus_if, List.append_nil, List.nil_append, List.append_assoc, List.cons_append, reduceIte] at *
    all_goals grind
  | .named x e its => by
    have ih1 := kE e
    have ih2 := kIts its
    intro sh h hl sh' n
    simp only [uE, uEs, uIts, uS, uI, uT, uB, uC, lE, lEs, lIts, lS, lI, lT, lB, unG, prE, prEs, prIts, prS, prI, prT, prB, fE, fEs, fIts, fS, fI, fT, fB, ellE, ellEs, ellIts, ellS, ellI, ellT, ellB, Bool.and_eq_true, kus, kus_append, kms, kms_append, kus_plain, kms_brk, sepEs_l, sepIts_l, eqEs_l, kus_if, List.append_nil, List.nil_append, List.append_assoc, List.cons_append, reduceIte] at *
    all_goals grind
  | .keyed k e its => by
    have ih1 := kE k
    have ih2 := kE e
    have ih3 := kIts its
    intro sh h hl sh' n
    simp only [uE, uEs, uIts, uS, uI, uT, uB, uC, lE, lEs, lIts, lS, lI, lT, lB, unG, prE, prEs, prIts, prS, prI, prT, prB, fE, fEs, fIts, fS, fI, fT, fB, ellE, ellEs, ellIts, ellS, ellI, ellT, ellB, Bool.and_eq_true, kus, kus_append, kms, kms_append, kus_plain, kms_brk, sepEs_l, sepIts_l, eqEs_l, kus_if, List.append_nil, List.nil_append, List.append_assoc, List.cons_append, reduceIte] at *
    all_goals grind
theorem kS : ∀ (x : St), ∀ (sh c : Bool), fS false .pico8 sh c x → ellS x = true → ∀ (sh' : Bool) (n : Nat), kus (uS ind n x) = kms (prS .kThen sh' (lS x))
  | .do_ b => by
    have ih1 := kB b
    intro sh c h hl sh' n
    simp only [uE, uEs, uIts, uS, uI, uT, uB, uC, lE, lEs, lIts, lS, lI, lT, lB, unG, prE, prEs, prIts, prS, prI, prT, prB, fE, fEs, fIts, fS, fI, fT, fB, ellE, ellEs, ellIts, ellS, ellI, ellT, ellB, Bool.and_eq_true, kus, kus_append, kms, kms_append, kus_plain, kms_brk, sepEs_l, sepIts_l, eqEs_l, kus_if, List.append_nil, List.nil_append, List.append_assoc, List.cons_append, reduceIte] at *
    all_goals grind
  | .if_ i => by
    have ih1 := kI i
    intro sh c h hl sh' n
    simp only [uE, uEs, uIts, uS, uI, uT, uB, uC, lE, lEs, lIts, lS, lI, lT, lB, unG, prE, prEs, prIts, prS, prI, prT, prB, fE, fEs, fIts, fS, fI, fT, fB, ellE, ellEs, ellIts, ellS, ellI, ellT, ellB, Bool.and_eq_true, kus, kus_append, kms, kms_append, kus_plain, kms_brk, sepEs_l, sepIts_l, eqEs_l, kus_if, List.append_nil, List.nil_append, List.append_assoc, List.cons_append, reduceIte] at *
    all_goals grind
  | .while_ e b => by
    have ih1 := kE e
    have ih2 := kB b
    intro sh c h hl sh' n
    simp only [uE, uEs, uIts, uS, uI, uT, uB, uC, lE, lEs, lIts, lS, lI, lT, lB, unG, prE, prEs, prIts, prS, prI, prT, prB, fE, fEs, fIts, fS, fI, fT, fB, ellE, ellEs, ellIts, ellS, ellI, ellT, ellB, Bool.and_eq_true, kus, kus_append, kms, kms_append, kus_plain, kms_brk, sepEs_l, sepIts_l, eqEs_l, kus_if, List.append_nil, List.nil_append, List.append_assoc, List.cons_append, reduceIte] at *
    all_goals grind
  | .whileShort e b d => by
    have ih1 := kE e
    have ih2 := kB b
    intro sh c h hl sh' n
    cases e <;> first
      | (exfalso; simp [fS, Tidy.isGroup] at h; done)
      | skip
    simp only [uE, uEs, uIts, uS, uI, uT, uB, uC, lE, lEs, lIts, lS, lI, lT, lB, unG, prE, prEs, prIts, prS, prI, prT, prB, fE, fEs, fIts, fS, fI, fT, fB, ellE, ellEs, ellIts, ellS, ellI, ellT, ellB, Bool.and_eq_true, kus, kus_append, kms, kms_append, kus_plain, kms_brk, sepEs_l, sepIts_l, eqEs_l, kus_if, List.append_nil, List.nil_append, List.append_assoc, List.cons_append, reduceIte, List.cons.injEq, true_and, List.append_cancel_right_eq] at *
    all_goals grind
  | .repeat_ b e => by
    have ih1 := kB b
    have ih2 := kE e
    intro sh c h hl sh' n
    simp only [uE, uEs, uIts, uS, uI, uT, uB, uC, lE, lEs, lIts, lS, lI, lT, lB, unG, prE, prEs, prIts, prS, prI, prT, prB, fE, fEs, fIts, fS, fI, fT, fB, ellE, ellEs, ellIts, ellS, ellI, ellT, ellB, Bool.and_eq_true, kus, kus_append, kms, kms_append, kus_plain, kms_brk, sepEs_l, sepIts_l, eqEs_l, kus_if, List.append_nil, List.nil_append, List.append_assoc, List.cons_append, reduceIte] at *
    all_goals grind
  | .fornum x a b s d => by
    have ih1 := kE a
    have ih2 := kE b
    have ih3 := kEs s
    have ih4 := kB d
    intro sh c h hl sh' n
    simp only [uE, uEs, uIts, uS, uI, uT, uB, uC, lE, lEs, lIts, lS, lI, lT, lB, unG, prE, prEs, prIts, prS, prI, prT, prB, fE, fEs, fIts, fS, fI, fT, fB, ellE, ellEs, ellIts, ellS, ellI, ellT, ellB, Bool.and_eq_true, kus, kus_append, kms, kms_append, kus_plain, kms_brk, sepEs_l, sepIts_l, eqEs_l, kus_if, List.append_nil, List.nil_append, List.append_assoc, List.cons_append, reduceIte] at *
    all_goals grind
  | .forin xs es d => by
    have ih1 := kEs es
    have ih2 := kB d
    intro sh c h hl sh' n
    simp only [uE, uEs, uIts, uS, uI, uT, uB, uC, lE, lEs, lIts, lS, lI, lT, lB, unG, prE, prEs, prIts, prS, prI, prT, prB, fE, fEs, fIts, fS, fI, fT, fB, ellE, ellEs, ellIts, ellS, ellI, ellT, ellB, Bool.and_eq_true, kus, kus_append, kms, kms_append, kus_plain, kms_brk, sepEs_l, sepIts_l, eqEs_l, kus_if, List.append_nil, List.nil_append, List.append_assoc, List.cons_append, reduceIte] at *
    all_goals grind
  | .break_ => by
    intro sh c h hl sh' n
    simp only [uE, uEs, uIts, uS, uI, uT, uB, uC, lE, lEs, lIts, lS, lI, lT, lB, unG, prE, prEs, prIts, prS, prI, prT, prB, fE, fEs, fIts, fS, fI, fT, fB, ellE, ellEs, ellIts, ellS, ellI, ellT, ellB, Bool.and_eq_true, kus, kus_append, kms, kms_append, kus_plain, kms_brk, sepEs_l, sepIts_l, eqEs_l, kus_if, List.append_nil, List.nil_append, List.append_assoc, List.cons_append, reduceIte] at *
    all_goals grind
  | .return_ es => by
    have ih1 := kEs es
    intro sh c h hl sh' n
    simp only [uE, uEs, uIts, uS, uI, uT, uB, uC, lE, lEs, lIts, lS, lI, lT, lB, unG, prE, prEs, prIts, prS, prI, prT, prB, fE, fEs, fIts, fS, fI, fT, fB, ellE, ellEs, ellIts, ellS, ellI, ellT, ellB, Bool.and_eq_true, kus, kus_append, kms, kms_append, kus_plain, kms_brk, sepEs_l, sepIts_l, eqEs_l, kus_if, List.append_nil, List.nil_append, List.append_assoc, List.cons_append, reduceIte] at *
    all_goals grind
  | .local_ xs es => by
    have ih1 := kEs es
    intro sh c h hl sh' n
    simp only [uE, uEs, uIts, uS, uI, uT, uB, uC, lE, lEs, lIts, lS, lI, lT, lB, unG, prE, prEs, prIts, prS, prI, prT, prB, fE, fEs, fIts, fS, fI, fT, fB, ellE, ellEs, ellIts, ellS, ellI, ellT, ellB, Bool.and_eq_true, kus, kus_append, kms, kms_append, kus_plain, kms_brk, sepEs_l, sepIts_l, eqEs_l, kus_if, List.append_nil, List.nil_append, List.append_assoc, List.cons_append, reduceIte] at *
    all_goals grind
  | .localfn x ps b => by
    have ih1 := kB b
    intro sh c h hl sh' n
    simp only [uE, uEs, uIts, uS, uI, uT, uB, uC, lE, lEs, lIts, lS, lI, lT, lB, unG, prE, prEs, prIts, prS, prI, prT, prB, fE, fEs, fIts, fS, fI, fT, fB, ellE, ellEs, ellIts, ellS, ellI, ellT, ellB, Bool.and_eq_true, kus, kus_append, kms, kms_append, kus_plain, kms_brk, sepEs_l, sepIts_l, eqEs_l, kus_if, List.append_nil, List.nil_append, List.append_assoc, List.cons_append, reduceIte] at *
    all_goals grind
  | .goto_ x => by
    intro sh c h hl sh' n
    simp only [uE, uEs, uIts, uS, uI, uT, uB, uC, lE, lEs, lIts, lS, lI, lT, lB, unG, prE, prEs, prIts, prS, prI, prT, prB, fE, fEs, fIts, fS, fI, fT, fB, ellE, ellEs, ellIts, ellS, ellI, ellT, ellB, Bool.and_eq_true, kus, kus_append, kms, kms_append, kus_plain, kms_brk, sepEs_l, sepIts_l, eqEs_l, kus_if, List.append_nil, List.nil_append, List.append_assoc, List.cons_append, reduceIte] at *
    all_goals grind
  | .label x => by
    intro sh c h hl sh' n
    simp only [uE, uEs, uIts, uS, uI, uT, uB, uC, lE, lEs, lIts, lS, lI, lT, lB, unG, prE, prEs, prIts, prS, prI, prT, prB, fE, fEs, fIts, fS, fI, fT, fB, ellE, ellEs, ellIts, ellS, ellI, ellT, ellB, Bool.and_eq_true, kus, kus_append, kms, kms_append, kus_plain, kms_brk, sepEs_l, sepIts_l, eqEs_l, kus_if, List.append_nil, List.nil_append, List.append_assoc, List.cons_append, reduceIte] at *
    all_goals grind
  | .func f ps b => by
    have ih1 := kB b
    intro sh c h hl sh' n
    simp only [uE, uEs, uIts, uS, uI, uT, uB, uC, lE, lEs, lIts, lS, lI, lT, lB, unG, prE, prEs, prIts, prS, prI, prT, prB, fE, fEs, fIts, fS, fI, fT, fB, ellE, ellEs, ellIts, ellS, ellI, ellT, ellB, Bool.and_eq_true, kus, kus_append, kms, kms_append, kus_plain, kms_brk, sepEs_l, sepIts_l, eqEs_l, kus_if, List.append_nil, List.nil_append, List.append_assoc, List.cons_append, reduceIte] at *
    all_goals grind
  | .assign ts es => by
    have ih1 := kEs ts
    have ih2 := kEs es
    intro sh c h hl sh' n
    simp only [uE, uEs, uIts, uS, uI, uT, uB, uC, lE, lEs, lIts, lS, lI, lT, lB, unG, prE, prEs, prIts, prS, prI, prT, prB, fE, fEs, fIts, fS, fI, fT, fB, ellE, ellEs, ellIts, ellS, ellI, ellT, ellB, Bool.and_eq_true, kus, kus_append, kms, kms_append, kus_plain, kms_brk, sepEs_l, sepIts_l, eqEs_l, kus_if, List.append_nil, List.nil_append, List.append_assoc, List.cons_append, reduceIte] at *
    all_goals grind
  | .opassign o t e => by
    have ih1 := kE t
    have ih2 := kE e
    intro sh c h hl sh' n
    simp only [uE, uEs, uIts, uS, uI, uT, uB, uC, lE, lEs, lIts, lS, lI, lT, lB, unG, prE, prEs, prIts, prS, prI, prT, prB, fE, fEs, fIts, fS, fI, fT, fB, ellE, ellEs, ellIts, ellS, ellI, ellT, ellB, Bool.and_eq_true, kus, kus_append, kms, kms_append, kus_plain, kms_brk, sepEs_l, sepIts_l, eqEs_l, kus_if, List.append_nil, List.nil_append, List.append_assoc, List.cons_append, reduceIte] at *
    all_goals grind
  | .call e => by
    have ih1 := kE e
    intro sh c h hl sh' n
    simp only [uE, uEs, uIts, uS, uI, uT, uB, uC, lE, lEs, lIts, lS, lI, lT, lB, unG, prE, prEs, prIts, prS, prI, prT, prB, fE, fEs, fIts, fS, fI, fT, fB, ellE, ellEs, ellIts, ellS, ellI, ellT, ellB, Bool.and_eq_true, kus, kus_append, kms, kms_append, kus_plain, kms_brk, sepEs_l, sepIts_l, eqEs_l, kus_if, List.append_nil, List.nil_append, List.append_assoc, List.cons_append, reduceIte] at *
    all_goals grind
  | .print es => by
    have ih1 := kEs es
    intro sh c h hl sh' n
    simp only [uE, uEs, uIts, uS, uI, uT, uB, uC, lE, lEs, lIts, lS, lI, lT, lB, unG, prE, prEs, prIts, prS, prI, prT, prB, fE, fEs, fIts, fS, fI, fT, fB, ellE, ellEs, ellIts, ellS, ellI, ellT, ellB, Bool.and_eq_true, kus, kus_append, kms, kms_append, kus_plain, kms_brk, sepEs_l, sepIts_l, eqEs_l, kus_if, List.append_nil, List.nil_append, List.append_assoc, List.cons_append, reduceIte] at *
    all_goals grind
theorem kI : ∀ (x : If), ∀ (sh c : Bool), fI false .pico8 sh c x → ellI x = true → ∀ (sh' : Bool) (n : Nat) (w : Bool), (w = true ∨ Mini.isLong x = true) → kus (uI ind n w x) = kms (prI .kThen sh' (lI x))
  | .long e b t => by
    have ih1 := kE e
    have ih2 := kB b
    have ih3 := kT t
    intro sh c h hl sh' n w hw
    simp only [uE, uEs, uIts, uS, uI, uT, uB, uC, lE, lEs, lIts, lS, lI, lT, lB, unG, prE, prEs, prIts, prS, prI, prT, prB, fE, fEs, fIts, fS, fI, fT, fB, ellE, ellEs, ellIts, ellS, ellI, ellT, ellB, Bool.and_eq_true, kus, kus_append, kms, kms_append, kus_plain, kms_brk, sepEs_l, sepIts_l, eqEs_l, kus_if, List.append_nil, List.nil_append, List.append_assoc, List.cons_append, reduceIte] at *
    all_goals grind
  | .short e b d => by
    have ih1 := kE e
    have ih2 := kB b
    intro sh c h hl sh' n w hw
    obtain rfl : w = true := by rcases hw with hw | hw; exact hw; cases hw
    cases e <;> first
      | (exfalso; simp [fI, Tidy.isGroup] at h; done)
      | skip
    simp only [uE, uEs, uIts, uS, uI, uT, uB, uC, lE, lEs, lIts, lS, lI, lT, lB, unG, prE, prEs, prIts, prS, prI, prT, prB, fE, fEs, fIts, fS, fI, fT, fB, ellE, ellEs, ellIts, ellS, ellI, ellT, ellB, Bool.and_eq_true, kus, kus_append, kms, kms_append, kus_plain, kms_brk, sepEs_l, sepIts_l, eqEs_l, kus_if, List.append_nil, List.nil_append, List.append_assoc, List.cons_append, reduceIte, List.cons.injEq, true_and, List.append_cancel_right_eq] at *
    all_goals grind
  | .shortElse e b b' d => by
    have ih1 := kE e
    have ih2 := kB b
    have ih3 := kB b'
    intro sh c h hl sh' n w hw
    obtain rfl : w = true := by rcases hw with hw | hw; exact hw; cases hw
    cases e <;> first
      | (exfalso; simp [fI, Tidy.isGroup] at h; done)
      | skip
    have hl' := hl
    simp only [ellI, Bool.and_eq_true] at hl'
    simp only [uE, uEs, uIts, uS, uI, uT, uB, uC, lE, lEs, lIts, lS, lI, lT, lB, unG, prE, prEs, prIts, prS, prI, prT, prB, fE, fEs, fIts, fS, fI, fT, fB, ellE, ellEs, ellIts, ellS, ellI, ellT, ellB, Bool.and_eq_true, kus, kus_append, kms, kms_append, kus_plain, kms_brk, sepEs_l, sepIts_l, eqEs_l, kus_if, List.append_nil, List.nil_append, List.append_assoc, List.cons_append, reduceIte, uL_eq ind b' _ _ hl'.1.1.1, List.cons.injEq, true_and, List.append_cancel_right_eq] at *
    all_goals grind
theorem kT : ∀ (x : Syntax.Tail), ∀ (sh : Bool), fT false .pico8 sh x → ellT x = true → ∀ (sh' : Bool) (n : Nat), kus (uT ind n x) = kms (prT .kThen sh' (lT x))
  | .end_ => by
    intro sh h hl sh' n
    simp only [uE, uEs, uIts, uS, uI, uT, uB, uC, lE, lEs, lIts, lS, lI, lT, lB, unG, prE, prEs, prIts, prS, prI, prT, prB, fE, fEs, fIts, fS, fI, fT, fB, ellE, ellEs, ellIts, ellS, ellI, ellT, ellB, Bool.and_eq_true, kus, kus_append, kms, kms_append, kus_plain, kms_brk, sepEs_l, sepIts_l, eqEs_l, kus_if, List.append_nil, List.nil_append, List.append_assoc, List.cons_append, reduceIte] at *
    all_goals grind
  | .else_ b => by
    have ih1 := kB b
    intro sh h hl sh' n
    simp only [uE, uEs, uIts, uS, uI, uT, uB, uC, lE, lEs, lIts, lS, lI, lT, lB, unG, prE, prEs, prIts, prS, prI, prT, prB, fE, fEs, fIts, fS, fI, fT, fB, ellE, ellEs, ellIts, ellS, ellI, ellT, ellB, Bool.and_eq_true, kus, kus_append, kms, kms_append, kus_plain, kms_brk, sepEs_l, sepIts_l, eqEs_l, kus_if, List.append_nil, List.nil_append, List.append_assoc, List.cons_append, reduceIte] at *
    all_goals grind
  | .elseif_ i => by
    have ih1 := kI i
    intro sh h hl sh' n
    simp only [uE, uEs, uIts, uS, uI, uT, uB, uC, lE, lEs, lIts, lS, lI, lT, lB, unG, prE, prEs, prIts, prS, prI, prT, prB, fE, fEs, fIts, fS, fI, fT, fB, ellE, ellEs, ellIts, ellS, ellI, ellT, ellB, Bool.and_eq_true, kus, kus_append, kms, kms_append, kus_plain, kms_brk, sepEs_l, sepIts_l, eqEs_l, kus_if, List.append_nil, List.nil_append, List.append_assoc, List.cons_append, reduceIte] at *
    all_goals grind
theorem kB : ∀ (x : Block), ∀ (sh c : Bool), fB false .pico8 sh c x → ellB x = true → ∀ (sh' : Bool) (n : Nat) (q : Option Bool), kus (uB ind n q x) = kms (prB .kThen sh' (lB x))
  | .nil => by
    intro sh c h hl sh' n q
    simp only [uE, uEs, uIts, uS, uI, uT, uB, uC, lE, lEs, lIts, lS, lI, lT, lB, unG, prE, prEs, prIts, prS, prI, prT, prB, fE, fEs, fIts, fS, fI, fT, fB, ellE, ellEs, ellIts, ellS, ellI, ellT, ellB, Bool.and_eq_true, kus, kus_append, kms, kms_append, kus_plain, kms_brk, sepEs_l, sepIts_l, eqEs_l, kus_if, List.append_nil, List.nil_append, List.append_assoc, List.cons_append, reduceIte] at *
    all_goals grind
  | .semi b => by
    have ih1 := kB b
    intro sh c h hl sh' n q
    simp only [uE, uEs, uIts, uS, uI, uT, uB, uC, lE, lEs, lIts, lS, lI, lT, lB, unG, prE, prEs, prIts, prS, prI, prT, prB, fE, fEs, fIts, fS, fI, fT, fB, ellE, ellEs, ellIts, ellS, ellI, ellT, ellB, Bool.and_eq_true, kus, kus_append, kms, kms_append, kus_plain, kms_brk, sepEs_l, sepIts_l, eqEs_l, kus_if, List.append_nil, List.nil_append, List.append_assoc, List.cons_append, reduceIte] at *
    all_goals grind
  | .cons s b => by
    have ih1 := kS s
    have ih2 := kB b
    intro sh c h hl sh' n q
    simp only [uE, uEs, uIts, uS, uI, uT, uB, uC, lE, lEs, lIts, lS, lI, lT, lB, unG, prE, prEs, prIts, prS, prI, prT, prB, fE, fEs, fIts, fS, fI, fT, fB, ellE, ellEs, ellIts, ellS, ellI, ellT, ellB, Bool.and_eq_true, kus, kus_append, kms, kms_append, kus_plain, kms_brk, sepEs_l, sepIts_l, eqEs_l, kus_if, List.append_nil, List.nil_append, List.append_assoc, List.cons_append, reduceIte] at *
    all_goals grind
end

theorem fine_long {L : Lang} {b : Block} (h : Fine false L b) (hs : Long.sepB b = true) : Fine true L (lB b) :=
  ⟨fine_lB L b _ _ h.1 hs _ _, by rw [endsRet_l]; exact h.2⟩

end Verif.Unmin
