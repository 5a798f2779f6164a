import Verif.Spec.Long
/-
Without shorthands, the lines of the tokens do not matter.
-/
set_option linter.unusedVariables false
set_option linter.unusedSimpArgs false
namespace Verif.Reline
open Syntax
open LuaGrammar
open Long
open Paren (Op Lang)

/-- The kinds of the tokens. -/
def ks (i : List T) : List K := i.map T.k

theorem ks_nil {j : List T} (h : ks j = ks []) : j = [] := by
  cases j with
  | nil => rfl
  | cons t j => cases h

theorem ks_cons {j m : List T} {k : K} {l : Nat} (h : ks j = ks (⟨k, l⟩ :: m)) : ∃ l' j', j = ⟨k, l'⟩ :: j' ∧ ks j' = ks m := by
  cases j with
  | nil => cases h
  | cons t j =>
    simp only [ks, List.map_cons, List.cons.injEq] at h
    obtain ⟨rfl, h⟩ := h
    exact ⟨t.line, j, rfl, h⟩

theorem next_of {P : K → Prop} {j i : List T} (h : ks j = ks i) : Next P i → Next P j := by
  rintro ⟨⟨k, l⟩, r, rfl, hp⟩
  obtain ⟨l', j', rfl, -⟩ := ks_cons h
  exact ⟨_, _, rfl, hp⟩

theorem next_not {P : K → Prop} {j i : List T} (h : ks j = ks i) (hn : ¬ Next P i) : ¬ Next P j := fun hj => hn (next_of h.symm hj)

variable {L : Lang}

theorem done_of {e : Ex} {j i : List T} (h : ks j = ks i) (hd : Done L e i) : Done L e j := ⟨next_not h hd.1, fun ho => next_not h (hd.2 ho)⟩

theorem doneList_of : ∀ {es : Exs} {j i : List T}, ks j = ks i → DoneList L es i → DoneList L es j
  | .nil, _, _, _, _ => trivial
  | .cons e .nil, _, _, h, hd => ⟨done_of h hd.1, next_not h hd.2⟩
  | .cons e (.cons f es), _, _, h, hd => doneList_of (es := .cons f es) h hd

theorem later_none {r : List T} : ¬ Later none r := by rintro ⟨l, h, -⟩; cases h

theorem closes_of {j r : List T} (hj : ks j = ks r) (h : r = [] ∨ Later none r ∨ Next Closes r) : j = [] ∨ Later none j ∨ Next Closes j := by
  rcases h with rfl | h | h
  · exact .inl (ks_nil hj)
  · exact absurd h later_none
  · exact .inr (.inr (next_of hj h))

theorem names_of {i r : List T} {xs : List Nm} (h : Names i r xs) : ∀ j, ks j = ks i → ∃ r', ks r' = ks r ∧ Names j r' xs := by
  induction h with
  | one => intro j hj; obtain ⟨_, j', rfl, hn⟩ := ks_cons hj; replace hj := hn; clear hn; exact ⟨_, hj, .one⟩
  | cons h ih =>
    intro j hj
    obtain ⟨_, j, rfl, hn⟩ := ks_cons hj; replace hj := hn; clear hn
    obtain ⟨_, j, rfl, hn⟩ := ks_cons hj; replace hj := hn; clear hn
    obtain ⟨r', hr, h'⟩ := ih j hj
    exact ⟨_, hr, .cons h'⟩

theorem attr_of {i r : List T} {a : Option Nm} (h : Attr L i r a) : ∀ j, ks j = ks i → ∃ r', ks r' = ks r ∧ Attr L j r' a := by
  cases h with
  | none h => intro j hj; exact ⟨_, hj, .none fun e => next_not hj (h e)⟩
  | some hL ha =>
    intro j hj
    obtain ⟨_, j, rfl, hn⟩ := ks_cons hj; replace hj := hn; clear hn
    obtain ⟨_, j, rfl, hn⟩ := ks_cons hj; replace hj := hn; clear hn
    obtain ⟨_, j, rfl, hn⟩ := ks_cons hj; replace hj := hn; clear hn
    exact ⟨_, hj, .some hL ha⟩

theorem locals_of {i r : List T} {xs : List (Nm × Option Nm)} (h : Locals L i r xs) : ∀ j, ks j = ks i → ∃ r', ks r' = ks r ∧ Locals L j r' xs := by
  induction h with
  | one h hn =>
    intro j hj
    obtain ⟨_, j, rfl, hn⟩ := ks_cons hj; replace hj := hn; clear hn
    obtain ⟨r', hr, h'⟩ := attr_of h j hj
    exact ⟨_, hr, .one h' (next_not hr hn)⟩
  | cons h _ ih =>
    intro j hj
    obtain ⟨_, j, rfl, hn⟩ := ks_cons hj; replace hj := hn; clear hn
    obtain ⟨j, hj, h'⟩ := attr_of h j hj
    obtain ⟨_, j, rfl, hn⟩ := ks_cons hj; replace hj := hn; clear hn
    obtain ⟨r', hr, h''⟩ := ih j hj
    exact ⟨_, hr, .cons h' h''⟩

theorem par_of {i r : List T} {p : Param} (h : Par i r p) : ∀ j, ks j = ks i → ∃ r', ks r' = ks r ∧ Par j r' p := by
  intro j hj
  cases h with
  | dots => obtain ⟨_, j, rfl, hn⟩ := ks_cons hj; replace hj := hn; clear hn; exact ⟨_, hj, .dots⟩
  | name => obtain ⟨_, j, rfl, hn⟩ := ks_cons hj; replace hj := hn; clear hn; exact ⟨_, hj, .name⟩

theorem pars_of {i r : List T} {ps : List Param} (h : Pars i r ps) : ∀ j, ks j = ks i → ∃ r', ks r' = ks r ∧ Pars j r' ps := by
  induction h with
  | one h =>
    intro j hj
    obtain ⟨j, hj, h'⟩ := par_of h j hj
    obtain ⟨_, j, rfl, hn⟩ := ks_cons hj; replace hj := hn; clear hn
    exact ⟨_, hj, .one h'⟩
  | cons h _ ih =>
    intro j hj
    obtain ⟨j, hj, h'⟩ := par_of h j hj
    obtain ⟨_, j, rfl, hn⟩ := ks_cons hj; replace hj := hn; clear hn
    obtain ⟨r', hr, h''⟩ := ih j hj
    exact ⟨_, hr, .cons h' h''⟩

theorem params_of {i r : List T} {ps : List Param} (h : Params i r ps) : ∀ j, ks j = ks i → ∃ r', ks r' = ks r ∧ Params j r' ps := by
  intro j hj
  cases h with
  | nil => obtain ⟨_, j, rfl, hn⟩ := ks_cons hj; replace hj := hn; clear hn; exact ⟨_, hj, .nil⟩
  | some h => obtain ⟨r', hr, h'⟩ := pars_of h j hj; exact ⟨_, hr, .some h'⟩

theorem keys_of {i r : List T} {xs : List Nm} (h : Keys i r xs) : ∀ j, ks j = ks i → ∃ r', ks r' = ks r ∧ Keys j r' xs := by
  induction h with
  | nil h => intro j hj; exact ⟨_, hj, .nil (next_not hj h)⟩
  | cons h ih =>
    intro j hj
    obtain ⟨_, j, rfl, hn⟩ := ks_cons hj; replace hj := hn; clear hn
    obtain ⟨_, j, rfl, hn⟩ := ks_cons hj; replace hj := hn; clear hn
    obtain ⟨r', hr, h'⟩ := ih j hj
    exact ⟨_, hr, .cons h'⟩

theorem name_of {i r : List T} {f : FnName} (h : LuaGrammar.Name i r f) : ∀ j, ks j = ks i → ∃ r', ks r' = ks r ∧ LuaGrammar.Name j r' f := by
  intro j hj
  cases h with
  | func h hn =>
    obtain ⟨_, j, rfl, hn⟩ := ks_cons hj; replace hj := hn; clear hn
    obtain ⟨r', hr, h'⟩ := keys_of h j hj
    exact ⟨_, hr, .func h' (next_not hr hn)⟩
  | method h =>
    obtain ⟨_, j, rfl, hn⟩ := ks_cons hj; replace hj := hn; clear hn
    obtain ⟨j, hj, h'⟩ := keys_of h j hj
    obtain ⟨_, j, rfl, hn⟩ := ks_cons hj; replace hj := hn; clear hn
    obtain ⟨_, j, rfl, hn⟩ := ks_cons hj; replace hj := hn; clear hn
    exact ⟨_, hj, .method h'⟩

set_option maxHeartbeats 4000000 in
mutual
theorem E_re : ∀ {k : Nat} {i r : List T} {e : Ex}, E L k i r e → lgE e = true → ∀ j, ks j = ks i → ∃ r', ks r' = ks r ∧ E L k j r' e
  | _, _, _, _, .up h1, hl => fun j hj => by
    try simp only [lgE, lgEs, lgIts, lgS, lgI, lgT, lgB, Bool.and_eq_true] at hl
    obtain ⟨j, hj, h1'⟩ := E_re h1 (by simp [lgE, lgEs, lgIts, lgS, lgI, lgT, lgB, hl]) _ hj
    exact ⟨_, hj, .up h1'⟩
  | _, _, _, _, .left h1 h2 h3 h4, hl => fun j hj => by
    try simp only [lgE, lgEs, lgIts, lgS, lgI, lgT, lgB, Bool.and_eq_true] at hl
    obtain ⟨j, hj, h3'⟩ := E_re h3 (by simp [lgE, lgEs, lgIts, lgS, lgI, lgT, lgB, hl]) _ hj
    obtain ⟨_, j, rfl, hn⟩ := ks_cons hj; replace hj := hn; clear hn
    obtain ⟨j, hj, h4'⟩ := E_re h4 (by simp [lgE, lgEs, lgIts, lgS, lgI, lgT, lgB, hl]) _ hj
    exact ⟨_, hj, .left h1 h2 h3' h4'⟩
  | _, _, _, _, .concat h1 h2, hl => fun j hj => by
    try simp only [lgE, lgEs, lgIts, lgS, lgI, lgT, lgB, Bool.and_eq_true] at hl
    obtain ⟨j, hj, h1'⟩ := E_re h1 (by simp [lgE, lgEs, lgIts, lgS, lgI, lgT, lgB, hl]) _ hj
    obtain ⟨_, j, rfl, hn⟩ := ks_cons hj; replace hj := hn; clear hn
    obtain ⟨j, hj, h2'⟩ := E_re h2 (by simp [lgE, lgEs, lgIts, lgS, lgI, lgT, lgB, hl]) _ hj
    exact ⟨_, hj, .concat h1' h2'⟩
  | _, _, _, _, .un h1 h2, hl => fun j hj => by
    try simp only [lgE, lgEs, lgIts, lgS, lgI, lgT, lgB, Bool.and_eq_true] at hl
    obtain ⟨_, j, rfl, hn⟩ := ks_cons hj; replace hj := hn; clear hn
    obtain ⟨j, hj, h2'⟩ := E_re h2 (by simp [lgE, lgEs, lgIts, lgS, lgI, lgT, lgB, hl]) _ hj
    exact ⟨_, hj, .un h1 h2'⟩
  | _, _, _, _, .pow h1 h2, hl => fun j hj => by
    try simp only [lgE, lgEs, lgIts, lgS, lgI, lgT, lgB, Bool.and_eq_true] at hl
    obtain ⟨j, hj, h1'⟩ := E_re h1 (by simp [lgE, lgEs, lgIts, lgS, lgI, lgT, lgB, hl]) _ hj
    obtain ⟨_, j, rfl, hn⟩ := ks_cons hj; replace hj := hn; clear hn
    obtain ⟨j, hj, h2'⟩ := E_re h2 (by simp [lgE, lgEs, lgIts, lgS, lgI, lgT, lgB, hl]) _ hj
    exact ⟨_, hj, .pow h1' h2'⟩
  | _, _, _, _, .cst, hl => fun j hj => by
    obtain ⟨_, j, rfl, hn⟩ := ks_cons hj; replace hj := hn; clear hn
    exact ⟨_, hj, .cst⟩
  | _, _, _, _, .num, hl => fun j hj => by
    obtain ⟨_, j, rfl, hn⟩ := ks_cons hj; replace hj := hn; clear hn
    exact ⟨_, hj, .num⟩
  | _, _, _, _, .str, hl => fun j hj => by
    obtain ⟨_, j, rfl, hn⟩ := ks_cons hj; replace hj := hn; clear hn
    exact ⟨_, hj, .str⟩
  | _, _, _, _, .dots, hl => fun j hj => by
    obtain ⟨_, j, rfl, hn⟩ := ks_cons hj; replace hj := hn; clear hn
    exact ⟨_, hj, .dots⟩
  | _, _, _, _, .table h1, hl => fun j hj => by
    try simp only [lgE, lgEs, lgIts, lgS, lgI, lgT, lgB, Bool.and_eq_true] at hl
    obtain ⟨_, j, rfl, hn⟩ := ks_cons hj; replace hj := hn; clear hn
    obtain ⟨j, hj, h1'⟩ := Items_re h1 (by simp [lgE, lgEs, lgIts, lgS, lgI, lgT, lgB, hl]) _ hj
    exact ⟨_, hj, .table h1'⟩
  | _, _, _, _, .func h1, hl => fun j hj => by
    try simp only [lgE, lgEs, lgIts, lgS, lgI, lgT, lgB, Bool.and_eq_true] at hl
    obtain ⟨_, j, rfl, hn⟩ := ks_cons hj; replace hj := hn; clear hn
    obtain ⟨j, hj, h1'⟩ := Body_re h1 (by simp [lgE, lgEs, lgIts, lgS, lgI, lgT, lgB, hl]) _ hj
    exact ⟨_, hj, .func h1'⟩
  | _, _, _, _, .pre h1, hl => fun j hj => by
    try simp only [lgE, lgEs, lgIts, lgS, lgI, lgT, lgB, Bool.and_eq_true] at hl
    obtain ⟨j, hj, h1'⟩ := P_re h1 (by simp [lgE, lgEs, lgIts, lgS, lgI, lgT, lgB, hl]) _ hj
    exact ⟨_, hj, .pre h1'⟩
theorem P_re : ∀ {i r : List T} {e : Ex}, P L i r e → lgE e = true → ∀ j, ks j = ks i → ∃ r', ks r' = ks r ∧ P L j r' e
  | _, _, _, .var, hl => fun j hj => by
    obtain ⟨_, j, rfl, hn⟩ := ks_cons hj; replace hj := hn; clear hn
    exact ⟨_, hj, .var⟩
  | _, _, _, .group h1, hl => fun j hj => by
    try simp only [lgE, lgEs, lgIts, lgS, lgI, lgT, lgB, Bool.and_eq_true] at hl
    obtain ⟨_, j, rfl, hn⟩ := ks_cons hj; replace hj := hn; clear hn
    obtain ⟨j, hj, h1'⟩ := E_re h1 (by simp [lgE, lgEs, lgIts, lgS, lgI, lgT, lgB, hl]) _ hj
    obtain ⟨_, j, rfl, hn⟩ := ks_cons hj; replace hj := hn; clear hn
    exact ⟨_, hj, .group h1'⟩
  | _, _, _, .member h1, hl => fun j hj => by
    try simp only [lgE, lgEs, lgIts, lgS, lgI, lgT, lgB, Bool.and_eq_true] at hl
    obtain ⟨j, hj, h1'⟩ := P_re h1 (by simp [lgE, lgEs, lgIts, lgS, lgI, lgT, lgB, hl]) _ hj
    obtain ⟨_, j, rfl, hn⟩ := ks_cons hj; replace hj := hn; clear hn
    obtain ⟨_, j, rfl, hn⟩ := ks_cons hj; replace hj := hn; clear hn
    exact ⟨_, hj, .member h1'⟩
  | _, _, _, .index h1 h2, hl => fun j hj => by
    try simp only [lgE, lgEs, lgIts, lgS, lgI, lgT, lgB, Bool.and_eq_true] at hl
    obtain ⟨j, hj, h1'⟩ := P_re h1 (by simp [lgE, lgEs, lgIts, lgS, lgI, lgT, lgB, hl]) _ hj
    obtain ⟨_, j, rfl, hn⟩ := ks_cons hj; replace hj := hn; clear hn
    obtain ⟨j, hj, h2'⟩ := E_re h2 (by simp [lgE, lgEs, lgIts, lgS, lgI, lgT, lgB, hl]) _ hj
    obtain ⟨_, j, rfl, hn⟩ := ks_cons hj; replace hj := hn; clear hn
    exact ⟨_, hj, .index h1' h2'⟩
  | _, _, _, .call h1 h2, hl => fun j hj => by
    try simp only [lgE, lgEs, lgIts, lgS, lgI, lgT, lgB, Bool.and_eq_true] at hl
    obtain ⟨j, hj, h1'⟩ := P_re h1 (by simp [lgE, lgEs, lgIts, lgS, lgI, lgT, lgB, hl]) _ hj
    obtain ⟨_, j, rfl, hn⟩ := ks_cons hj; replace hj := hn; clear hn
    obtain ⟨j, hj, h2'⟩ := Args_re h2 (by simp [lgE, lgEs, lgIts, lgS, lgI, lgT, lgB, hl]) _ hj
    exact ⟨_, hj, .call h1' h2'⟩
  | _, _, _, .callBare h1 h2, hl => fun j hj => by
    try simp only [lgE, lgEs, lgIts, lgS, lgI, lgT, lgB, Bool.and_eq_true] at hl
    obtain ⟨j, hj, h1'⟩ := P_re h1 (by simp [lgE, lgEs, lgIts, lgS, lgI, lgT, lgB, hl]) _ hj
    obtain ⟨j, hj, h2'⟩ := Bare_re h2 (by simp [lgE, lgEs, lgIts, lgS, lgI, lgT, lgB, hl]) _ hj
    exact ⟨_, hj, .callBare h1' h2'⟩
  | _, _, _, .method h1 h2, hl => fun j hj => by
    try simp only [lgE, lgEs, lgIts, lgS, lgI, lgT, lgB, Bool.and_eq_true] at hl
    obtain ⟨j, hj, h1'⟩ := P_re h1 (by simp [lgE, lgEs, lgIts, lgS, lgI, lgT, lgB, hl]) _ hj
    obtain ⟨_, j, rfl, hn⟩ := ks_cons hj; replace hj := hn; clear hn
    obtain ⟨_, j, rfl, hn⟩ := ks_cons hj; replace hj := hn; clear hn
    obtain ⟨_, j, rfl, hn⟩ := ks_cons hj; replace hj := hn; clear hn
    obtain ⟨j, hj, h2'⟩ := Args_re h2 (by simp [lgE, lgEs, lgIts, lgS, lgI, lgT, lgB, hl]) _ hj
    exact ⟨_, hj, .method h1' h2'⟩
  | _, _, _, .methodBare h1 h2, hl => fun j hj => by
    try simp only [lgE, lgEs, lgIts, lgS, lgI, lgT, lgB, Bool.and_eq_true] at hl
    obtain ⟨j, hj, h1'⟩ := P_re h1 (by simp [lgE, lgEs, lgIts, lgS, lgI, lgT, lgB, hl]) _ hj
    obtain ⟨_, j, rfl, hn⟩ := ks_cons hj; replace hj := hn; clear hn
    obtain ⟨_, j, rfl, hn⟩ := ks_cons hj; replace hj := hn; clear hn
    obtain ⟨j, hj, h2'⟩ := Bare_re h2 (by simp [lgE, lgEs, lgIts, lgS, lgI, lgT, lgB, hl]) _ hj
    exact ⟨_, hj, .methodBare h1' h2'⟩
theorem Bare_re : ∀ {i r : List T} {e : Ex}, Bare L i r e → lgE e = true → ∀ j, ks j = ks i → ∃ r', ks r' = ks r ∧ Bare L j r' e
  | _, _, _, .str, hl => fun j hj => by
    obtain ⟨_, j, rfl, hn⟩ := ks_cons hj; replace hj := hn; clear hn
    exact ⟨_, hj, .str⟩
  | _, _, _, .table h1, hl => fun j hj => by
    try simp only [lgE, lgEs, lgIts, lgS, lgI, lgT, lgB, Bool.and_eq_true] at hl
    obtain ⟨_, j, rfl, hn⟩ := ks_cons hj; replace hj := hn; clear hn
    obtain ⟨j, hj, h1'⟩ := Items_re h1 (by simp [lgE, lgEs, lgIts, lgS, lgI, lgT, lgB, hl]) _ hj
    exact ⟨_, hj, .table h1'⟩
theorem Args_re : ∀ {i r : List T} {e : Exs}, Args L i r e → lgEs e = true → ∀ j, ks j = ks i → ∃ r', ks r' = ks r ∧ Args L j r' e
  | _, _, _, .nil, hl => fun j hj => by
    obtain ⟨_, j, rfl, hn⟩ := ks_cons hj; replace hj := hn; clear hn
    exact ⟨_, hj, .nil⟩
  | _, _, _, .some h1, hl => fun j hj => by
    try simp only [lgE, lgEs, lgIts, lgS, lgI, lgT, lgB, Bool.and_eq_true] at hl
    obtain ⟨j, hj, h1'⟩ := Es_re h1 (by simp [lgE, lgEs, lgIts, lgS, lgI, lgT, lgB, hl]) _ hj
    obtain ⟨_, j, rfl, hn⟩ := ks_cons hj; replace hj := hn; clear hn
    exact ⟨_, hj, .some h1'⟩
theorem Es_re : ∀ {i r : List T} {e : Exs}, Es L i r e → lgEs e = true → ∀ j, ks j = ks i → ∃ r', ks r' = ks r ∧ Es L j r' e
  | _, _, _, .one h1, hl => fun j hj => by
    try simp only [lgE, lgEs, lgIts, lgS, lgI, lgT, lgB, Bool.and_eq_true] at hl
    obtain ⟨j, hj, h1'⟩ := E_re h1 (by simp [lgE, lgEs, lgIts, lgS, lgI, lgT, lgB, hl]) _ hj
    exact ⟨_, hj, .one h1'⟩
  | _, _, _, .cons h1 h2, hl => fun j hj => by
    try simp only [lgE, lgEs, lgIts, lgS, lgI, lgT, lgB, Bool.and_eq_true] at hl
    obtain ⟨j, hj, h1'⟩ := E_re h1 (by simp [lgE, lgEs, lgIts, lgS, lgI, lgT, lgB, hl]) _ hj
    obtain ⟨_, j, rfl, hn⟩ := ks_cons hj; replace hj := hn; clear hn
    obtain ⟨j, hj, h2'⟩ := Es_re h2 (by simp [lgE, lgEs, lgIts, lgS, lgI, lgT, lgB, hl]) _ hj
    exact ⟨_, hj, .cons h1' h2'⟩
theorem Items_re : ∀ {i r : List T} {e : Its}, Items L i r e → lgIts e = true → ∀ j, ks j = ks i → ∃ r', ks r' = ks r ∧ Items L j r' e
  | _, _, _, .nil, hl => fun j hj => by
    obtain ⟨_, j, rfl, hn⟩ := ks_cons hj; replace hj := hn; clear hn
    exact ⟨_, hj, .nil⟩
  | _, _, _, .pos h1 h2, hl => fun j hj => by
    try simp only [lgE, lgEs, lgIts, lgS, lgI, lgT, lgB, Bool.and_eq_true] at hl
    obtain ⟨j, hj, h1'⟩ := E_re h1 (by simp [lgE, lgEs, lgIts, lgS, lgI, lgT, lgB, hl]) _ hj
    obtain ⟨j, hj, h2'⟩ := After_re h2 (by simp [lgE, lgEs, lgIts, lgS, lgI, lgT, lgB, hl]) _ hj
    exact ⟨_, hj, .pos h1' h2'⟩
  | _, _, _, .named h1 h2, hl => fun j hj => by
    try simp only [lgE, lgEs, lgIts, lgS, lgI, lgT, lgB, Bool.and_eq_true] at hl
    obtain ⟨_, j, rfl, hn⟩ := ks_cons hj; replace hj := hn; clear hn
    obtain ⟨_, j, rfl, hn⟩ := ks_cons hj; replace hj := hn; clear hn
    obtain ⟨j, hj, h1'⟩ := E_re h1 (by simp [lgE, lgEs, lgIts, lgS, lgI, lgT, lgB, hl]) _ hj
    obtain ⟨j, hj, h2'⟩ := After_re h2 (by simp [lgE, lgEs, lgIts, lgS, lgI, lgT, lgB, hl]) _ hj
    exact ⟨_, hj, .named h1' h2'⟩
  | _, _, _, .keyed h1 h2 h3, hl => fun j hj => by
    try simp only [lgE, lgEs, lgIts, lgS, lgI, lgT, lgB, Bool.and_eq_true] at hl
    obtain ⟨_, j, rfl, hn⟩ := ks_cons hj; replace hj := hn; clear hn
    obtain ⟨j, hj, h1'⟩ := E_re h1 (by simp [lgE, lgEs, lgIts, lgS, lgI, lgT, lgB, hl]) _ hj
    obtain ⟨_, j, rfl, hn⟩ := ks_cons hj; replace hj := hn; clear hn
    obtain ⟨_, j, rfl, hn⟩ := ks_cons hj; replace hj := hn; clear hn
    obtain ⟨j, hj, h2'⟩ := E_re h2 (by simp [lgE, lgEs, lgIts, lgS, lgI, lgT, lgB, hl]) _ hj
    obtain ⟨j, hj, h3'⟩ := After_re h3 (by simp [lgE, lgEs, lgIts, lgS, lgI, lgT, lgB, hl]) _ hj
    exact ⟨_, hj, .keyed h1' h2' h3'⟩
theorem After_re : ∀ {i r : List T} {e : Its}, After L i r e → lgIts e = true → ∀ j, ks j = ks i → ∃ r', ks r' = ks r ∧ After L j r' e
  | _, _, _, .close, hl => fun j hj => by
    obtain ⟨_, j, rfl, hn⟩ := ks_cons hj; replace hj := hn; clear hn
    exact ⟨_, hj, .close⟩
  | _, _, _, .semi h1, hl => fun j hj => by
    try simp only [lgE, lgEs, lgIts, lgS, lgI, lgT, lgB, Bool.and_eq_true] at hl
    obtain ⟨_, j, rfl, hn⟩ := ks_cons hj; replace hj := hn; clear hn
    obtain ⟨j, hj, h1'⟩ := Items_re h1 (by simp [lgE, lgEs, lgIts, lgS, lgI, lgT, lgB, hl]) _ hj
    exact ⟨_, hj, .semi h1'⟩
  | _, _, _, .comma h1, hl => fun j hj => by
    try simp only [lgE, lgEs, lgIts, lgS, lgI, lgT, lgB, Bool.and_eq_true] at hl
    obtain ⟨_, j, rfl, hn⟩ := ks_cons hj; replace hj := hn; clear hn
    obtain ⟨j, hj, h1'⟩ := Items_re h1 (by simp [lgE, lgEs, lgIts, lgS, lgI, lgT, lgB, hl]) _ hj
    exact ⟨_, hj, .comma h1'⟩
theorem Body_re : ∀ {i r : List T} {ps : List Param} {b : Block}, Body L i r ps b → lgB b = true → ∀ j, ks j = ks i → ∃ r', ks r' = ks r ∧ Body L j r' ps b
  | _, _, _, _, .mk h1 h2, hl => fun j hj => by
    try simp only [lgE, lgEs, lgIts, lgS, lgI, lgT, lgB, Bool.and_eq_true] at hl
    obtain ⟨_, j, rfl, hn⟩ := ks_cons hj; replace hj := hn; clear hn
    obtain ⟨j, hj, h1'⟩ := params_of h1 _ hj
    obtain ⟨j, hj, h2'⟩ := B_re h2 rfl (by simp [lgE, lgEs, lgIts, lgS, lgI, lgT, lgB, hl]) _ hj
    obtain ⟨_, j, rfl, hn⟩ := ks_cons hj; replace hj := hn; clear hn
    exact ⟨_, hj, .mk h1' h2'⟩
theorem B_re : ∀ {v : Option Nat} {i r : List T} {b : Block}, B L v i r b → v = none → lgB b = true → ∀ j, ks j = ks i → ∃ r', ks r' = ks r ∧ B L none j r' b
  | _, _, _, _, .nil h1, rfl, hl => fun j hj => by
    exact ⟨_, hj, .nil (closes_of hj h1)⟩
  | _, _, _, _, .semi h1 h2, rfl, hl => fun j hj => by
    try simp only [lgE, lgEs, lgIts, lgS, lgI, lgT, lgB, Bool.and_eq_true] at hl
    obtain ⟨_, j, rfl, hn⟩ := ks_cons hj; replace hj := hn; clear hn
    obtain ⟨j, hj, h2'⟩ := B_re h2 rfl (by simp [lgE, lgEs, lgIts, lgS, lgI, lgT, lgB, hl]) _ hj
    exact ⟨_, hj, .semi later_none h2'⟩
  | _, _, _, _, .cons h1 h2 h3, rfl, hl => fun j hj => by
    try simp only [lgE, lgEs, lgIts, lgS, lgI, lgT, lgB, Bool.and_eq_true] at hl
    obtain ⟨j, hj, h2'⟩ := S_re h2 rfl (by simp [lgE, lgEs, lgIts, lgS, lgI, lgT, lgB, hl]) _ hj
    obtain ⟨j, hj, h3'⟩ := B_re h3 rfl (by simp [lgE, lgEs, lgIts, lgS, lgI, lgT, lgB, hl]) _ hj
    exact ⟨_, hj, .cons later_none h2' h3'⟩
theorem S_re : ∀ {v : Option Nat} {i r : List T} {s : St}, S L v i r s → v = none → lgS s = true → ∀ j, ks j = ks i → ∃ r', ks r' = ks r ∧ S L none j r' s
  | _, _, _, _, .do_ h1, rfl, hl => fun j hj => by
    try simp only [lgE, lgEs, lgIts, lgS, lgI, lgT, lgB, Bool.and_eq_true] at hl
    obtain ⟨_, j, rfl, hn⟩ := ks_cons hj; replace hj := hn; clear hn
    obtain ⟨j, hj, h1'⟩ := B_re h1 rfl (by simp [lgE, lgEs, lgIts, lgS, lgI, lgT, lgB, hl]) _ hj
    obtain ⟨_, j, rfl, hn⟩ := ks_cons hj; replace hj := hn; clear hn
    exact ⟨_, hj, .do_ h1'⟩
  | _, _, _, _, .if_ h1, rfl, hl => fun j hj => by
    try simp only [lgE, lgEs, lgIts, lgS, lgI, lgT, lgB, Bool.and_eq_true] at hl
    obtain ⟨_, j, rfl, hn⟩ := ks_cons hj; replace hj := hn; clear hn
    obtain ⟨j, hj, h1'⟩ := I_re h1 (by simp [lgE, lgEs, lgIts, lgS, lgI, lgT, lgB, hl]) _ hj
    exact ⟨_, hj, .if_ h1'⟩
  | _, _, _, _, .while_ h1 h2, rfl, hl => fun j hj => by
    try simp only [lgE, lgEs, lgIts, lgS, lgI, lgT, lgB, Bool.and_eq_true] at hl
    obtain ⟨_, j, rfl, hn⟩ := ks_cons hj; replace hj := hn; clear hn
    obtain ⟨j, hj, h1'⟩ := E_re h1 (by simp [lgE, lgEs, lgIts, lgS, lgI, lgT, lgB, hl]) _ hj
    obtain ⟨_, j, rfl, hn⟩ := ks_cons hj; replace hj := hn; clear hn
    obtain ⟨j, hj, h2'⟩ := B_re h2 rfl (by simp [lgE, lgEs, lgIts, lgS, lgI, lgT, lgB, hl]) _ hj
    obtain ⟨_, j, rfl, hn⟩ := ks_cons hj; replace hj := hn; clear hn
    exact ⟨_, hj, .while_ h1' h2'⟩
  | _, _, _, _, .repeat_ h1 h2 h3, rfl, hl => fun j hj => by
    try simp only [lgE, lgEs, lgIts, lgS, lgI, lgT, lgB, Bool.and_eq_true] at hl
    obtain ⟨_, j, rfl, hn⟩ := ks_cons hj; replace hj := hn; clear hn
    obtain ⟨j, hj, h1'⟩ := B_re h1 rfl (by simp [lgE, lgEs, lgIts, lgS, lgI, lgT, lgB, hl]) _ hj
    obtain ⟨_, j, rfl, hn⟩ := ks_cons hj; replace hj := hn; clear hn
    obtain ⟨j, hj, h2'⟩ := E_re h2 (by simp [lgE, lgEs, lgIts, lgS, lgI, lgT, lgB, hl]) _ hj
    exact ⟨_, hj, .repeat_ h1' h2' (done_of hj h3)⟩
  | _, _, _, _, .fornum h1 h2 h3, rfl, hl => fun j hj => by
    try simp only [lgE, lgEs, lgIts, lgS, lgI, lgT, lgB, Bool.and_eq_true] at hl
    obtain ⟨_, j, rfl, hn⟩ := ks_cons hj; replace hj := hn; clear hn
    obtain ⟨_, j, rfl, hn⟩ := ks_cons hj; replace hj := hn; clear hn
    obtain ⟨_, j, rfl, hn⟩ := ks_cons hj; replace hj := hn; clear hn
    obtain ⟨j, hj, h1'⟩ := E_re h1 (by simp [lgE, lgEs, lgIts, lgS, lgI, lgT, lgB, hl]) _ hj
    obtain ⟨_, j, rfl, hn⟩ := ks_cons hj; replace hj := hn; clear hn
    obtain ⟨j, hj, h2'⟩ := E_re h2 (by simp [lgE, lgEs, lgIts, lgS, lgI, lgT, lgB, hl]) _ hj
    obtain ⟨_, j, rfl, hn⟩ := ks_cons hj; replace hj := hn; clear hn
    obtain ⟨j, hj, h3'⟩ := B_re h3 rfl (by simp [lgE, lgEs, lgIts, lgS, lgI, lgT, lgB, hl]) _ hj
    obtain ⟨_, j, rfl, hn⟩ := ks_cons hj; replace hj := hn; clear hn
    exact ⟨_, hj, .fornum h1' h2' h3'⟩
  | _, _, _, _, .forstep h1 h2 h3 h4, rfl, hl => fun j hj => by
    try simp only [lgE, lgEs, lgIts, lgS, lgI, lgT, lgB, Bool.and_eq_true] at hl
    obtain ⟨_, j, rfl, hn⟩ := ks_cons hj; replace hj := hn; clear hn
    obtain ⟨_, j, rfl, hn⟩ := ks_cons hj; replace hj := hn; clear hn
    obtain ⟨_, j, rfl, hn⟩ := ks_cons hj; replace hj := hn; clear hn
    obtain ⟨j, hj, h1'⟩ := E_re h1 (by simp [lgE, lgEs, lgIts, lgS, lgI, lgT, lgB, hl]) _ hj
    obtain ⟨_, j, rfl, hn⟩ := ks_cons hj; replace hj := hn; clear hn
    obtain ⟨j, hj, h2'⟩ := E_re h2 (by simp [lgE, lgEs, lgIts, lgS, lgI, lgT, lgB, hl]) _ hj
    obtain ⟨_, j, rfl, hn⟩ := ks_cons hj; replace hj := hn; clear hn
    obtain ⟨j, hj, h3'⟩ := E_re h3 (by simp [lgE, lgEs, lgIts, lgS, lgI, lgT, lgB, hl]) _ hj
    obtain ⟨_, j, rfl, hn⟩ := ks_cons hj; replace hj := hn; clear hn
    obtain ⟨j, hj, h4'⟩ := B_re h4 rfl (by simp [lgE, lgEs, lgIts, lgS, lgI, lgT, lgB, hl]) _ hj
    obtain ⟨_, j, rfl, hn⟩ := ks_cons hj; replace hj := hn; clear hn
    exact ⟨_, hj, .forstep h1' h2' h3' h4'⟩
  | _, _, _, _, .forin h1 h2 h3, rfl, hl => fun j hj => by
    try simp only [lgE, lgEs, lgIts, lgS, lgI, lgT, lgB, Bool.and_eq_true] at hl
    obtain ⟨_, j, rfl, hn⟩ := ks_cons hj; replace hj := hn; clear hn
    obtain ⟨j, hj, h1'⟩ := names_of h1 _ hj
    obtain ⟨_, j, rfl, hn⟩ := ks_cons hj; replace hj := hn; clear hn
    obtain ⟨j, hj, h2'⟩ := Es_re h2 (by simp [lgE, lgEs, lgIts, lgS, lgI, lgT, lgB, hl]) _ hj
    obtain ⟨_, j, rfl, hn⟩ := ks_cons hj; replace hj := hn; clear hn
    obtain ⟨j, hj, h3'⟩ := B_re h3 rfl (by simp [lgE, lgEs, lgIts, lgS, lgI, lgT, lgB, hl]) _ hj
    obtain ⟨_, j, rfl, hn⟩ := ks_cons hj; replace hj := hn; clear hn
    exact ⟨_, hj, .forin h1' h2' h3'⟩
  | _, _, _, _, .break_, rfl, hl => fun j hj => by
    obtain ⟨_, j, rfl, hn⟩ := ks_cons hj; replace hj := hn; clear hn
    exact ⟨_, hj, .break_⟩
  | _, _, _, _, .returnNone h1, rfl, hl => fun j hj => by
    obtain ⟨_, j, rfl, hn⟩ := ks_cons hj; replace hj := hn; clear hn
    exact ⟨_, hj, .returnNone (h1.imp (next_of hj) (.imp (next_of hj) fun h => absurd h later_none))⟩
  | _, _, _, _, .return_ h1 h2 h3, rfl, hl => fun j hj => by
    try simp only [lgE, lgEs, lgIts, lgS, lgI, lgT, lgB, Bool.and_eq_true] at hl
    obtain ⟨_, j, rfl, hn⟩ := ks_cons hj; replace hj := hn; clear hn
    obtain ⟨j, hj, h2'⟩ := Es_re h2 (by simp [lgE, lgEs, lgIts, lgS, lgI, lgT, lgB, hl]) _ hj
    exact ⟨_, hj, .return_ later_none h2' (doneList_of hj h3)⟩
  | _, _, _, _, .local_ h1 h2, rfl, hl => fun j hj => by
    obtain ⟨_, j, rfl, hn⟩ := ks_cons hj; replace hj := hn; clear hn
    obtain ⟨j, hj, h1'⟩ := locals_of h1 _ hj
    exact ⟨_, hj, .local_ h1' (next_not hj h2)⟩
  | _, _, _, _, .localAssign h1 h2 h3, rfl, hl => fun j hj => by
    try simp only [lgE, lgEs, lgIts, lgS, lgI, lgT, lgB, Bool.and_eq_true] at hl
    obtain ⟨_, j, rfl, hn⟩ := ks_cons hj; replace hj := hn; clear hn
    obtain ⟨j, hj, h1'⟩ := locals_of h1 _ hj
    obtain ⟨_, j, rfl, hn⟩ := ks_cons hj; replace hj := hn; clear hn
    obtain ⟨j, hj, h2'⟩ := Es_re h2 (by simp [lgE, lgEs, lgIts, lgS, lgI, lgT, lgB, hl]) _ hj
    exact ⟨_, hj, .localAssign h1' h2' (doneList_of hj h3)⟩
  | _, _, _, _, .localfn h1, rfl, hl => fun j hj => by
    try simp only [lgE, lgEs, lgIts, lgS, lgI, lgT, lgB, Bool.and_eq_true] at hl
    obtain ⟨_, j, rfl, hn⟩ := ks_cons hj; replace hj := hn; clear hn
    obtain ⟨_, j, rfl, hn⟩ := ks_cons hj; replace hj := hn; clear hn
    obtain ⟨_, j, rfl, hn⟩ := ks_cons hj; replace hj := hn; clear hn
    obtain ⟨j, hj, h1'⟩ := Body_re h1 (by simp [lgE, lgEs, lgIts, lgS, lgI, lgT, lgB, hl]) _ hj
    exact ⟨_, hj, .localfn h1'⟩
  | _, _, _, _, .goto_, rfl, hl => fun j hj => by
    obtain ⟨_, j, rfl, hn⟩ := ks_cons hj; replace hj := hn; clear hn
    obtain ⟨_, j, rfl, hn⟩ := ks_cons hj; replace hj := hn; clear hn
    exact ⟨_, hj, .goto_⟩
  | _, _, _, _, .label, rfl, hl => fun j hj => by
    obtain ⟨_, j, rfl, hn⟩ := ks_cons hj; replace hj := hn; clear hn
    obtain ⟨_, j, rfl, hn⟩ := ks_cons hj; replace hj := hn; clear hn
    obtain ⟨_, j, rfl, hn⟩ := ks_cons hj; replace hj := hn; clear hn
    exact ⟨_, hj, .label⟩
  | _, _, _, _, .func h1 h2, rfl, hl => fun j hj => by
    try simp only [lgE, lgEs, lgIts, lgS, lgI, lgT, lgB, Bool.and_eq_true] at hl
    obtain ⟨_, j, rfl, hn⟩ := ks_cons hj; replace hj := hn; clear hn
    obtain ⟨j, hj, h1'⟩ := name_of h1 _ hj
    obtain ⟨j, hj, h2'⟩ := Body_re h2 (by simp [lgE, lgEs, lgIts, lgS, lgI, lgT, lgB, hl]) _ hj
    exact ⟨_, hj, .func h1' h2'⟩
  | _, _, _, _, .assign h1 h2 h3 h4, rfl, hl => fun j hj => by
    have hz := hj
    try simp only [lgE, lgEs, lgIts, lgS, lgI, lgT, lgB, Bool.and_eq_true] at hl
    obtain ⟨j, hj, h2'⟩ := Es_re h2 (by simp [lgE, lgEs, lgIts, lgS, lgI, lgT, lgB, hl]) _ hj
    obtain ⟨_, j, rfl, hn⟩ := ks_cons hj; replace hj := hn; clear hn
    obtain ⟨j, hj, h3'⟩ := Es_re h3 (by simp [lgE, lgEs, lgIts, lgS, lgI, lgT, lgB, hl]) _ hj
    exact ⟨_, hj, .assign (next_not hz h1) h2' h3' (doneList_of hj h4)⟩
  | _, _, _, _, .opassign h1 h2 h3 h4, rfl, hl => fun j hj => by
    have hz := hj
    try simp only [lgE, lgEs, lgIts, lgS, lgI, lgT, lgB, Bool.and_eq_true] at hl
    obtain ⟨j, hj, h2'⟩ := E_re h2 (by simp [lgE, lgEs, lgIts, lgS, lgI, lgT, lgB, hl]) _ hj
    obtain ⟨_, j, rfl, hn⟩ := ks_cons hj; replace hj := hn; clear hn
    obtain ⟨j, hj, h3'⟩ := E_re h3 (by simp [lgE, lgEs, lgIts, lgS, lgI, lgT, lgB, hl]) _ hj
    exact ⟨_, hj, .opassign (next_not hz h1) h2' h3' (done_of hj h4)⟩
  | _, _, _, _, .call h1 h2 h3, rfl, hl => fun j hj => by
    try simp only [lgE, lgEs, lgIts, lgS, lgI, lgT, lgB, Bool.and_eq_true] at hl
    obtain ⟨j, hj, h1'⟩ := P_re h1 (by simp [lgE, lgEs, lgIts, lgS, lgI, lgT, lgB, hl]) _ hj
    exact ⟨_, hj, .call h1' (done_of hj h2) (next_not hj h3)⟩
  | _, _, _, _, .method h1 h2 h3, rfl, hl => fun j hj => by
    try simp only [lgE, lgEs, lgIts, lgS, lgI, lgT, lgB, Bool.and_eq_true] at hl
    obtain ⟨j, hj, h1'⟩ := P_re h1 (by simp [lgE, lgEs, lgIts, lgS, lgI, lgT, lgB, hl]) _ hj
    exact ⟨_, hj, .method h1' (done_of hj h2) (next_not hj h3)⟩
  | _, _, _, _, .print h1 h2, rfl, hl => fun j hj => by
    try simp only [lgE, lgEs, lgIts, lgS, lgI, lgT, lgB, Bool.and_eq_true] at hl
    obtain ⟨_, j, rfl, hn⟩ := ks_cons hj; replace hj := hn; clear hn
    obtain ⟨j, hj, h1'⟩ := Es_re h1 (by simp [lgE, lgEs, lgIts, lgS, lgI, lgT, lgB, hl]) _ hj
    exact ⟨_, hj, .print h1' (next_not hj h2)⟩
  | _, _, _, _, .whileShort _ _ _ _ _ _, rfl, hl => by simp [lgS, lgI] at hl
theorem I_re : ∀ {i r : List T} {e : If}, I L i r e → lgI e = true → ∀ j, ks j = ks i → ∃ r', ks r' = ks r ∧ I L j r' e
  | _, _, _, .long h1 h2 h3 h4, hl => fun j hj => by
    try simp only [lgE, lgEs, lgIts, lgS, lgI, lgT, lgB, Bool.and_eq_true] at hl
    obtain ⟨j, hj, h1'⟩ := E_re h1 (by simp [lgE, lgEs, lgIts, lgS, lgI, lgT, lgB, hl]) _ hj
    obtain ⟨_, j, rfl, hn⟩ := ks_cons hj; replace hj := hn; clear hn
    obtain ⟨j, hj, h3'⟩ := B_re h3 rfl (by simp [lgE, lgEs, lgIts, lgS, lgI, lgT, lgB, hl]) _ hj
    obtain ⟨j, hj, h4'⟩ := Tl_re h4 (by simp [lgE, lgEs, lgIts, lgS, lgI, lgT, lgB, hl]) _ hj
    exact ⟨_, hj, .long h1' h2 h3' h4'⟩
  | _, _, _, .short _ _ _ _ _ _ _, hl => by simp [lgS, lgI] at hl
  | _, _, _, .shortElse _ _ _ _ _ _ _, hl => by simp [lgS, lgI] at hl
theorem Tl_re : ∀ {i r : List T} {e : Syntax.Tail}, Tl L i r e → lgT e = true → ∀ j, ks j = ks i → ∃ r', ks r' = ks r ∧ Tl L j r' e
  | _, _, _, .end_, hl => fun j hj => by
    obtain ⟨_, j, rfl, hn⟩ := ks_cons hj; replace hj := hn; clear hn
    exact ⟨_, hj, .end_⟩
  | _, _, _, .else_ h1, hl => fun j hj => by
    try simp only [lgE, lgEs, lgIts, lgS, lgI, lgT, lgB, Bool.and_eq_true] at hl
    obtain ⟨_, j, rfl, hn⟩ := ks_cons hj; replace hj := hn; clear hn
    obtain ⟨j, hj, h1'⟩ := B_re h1 rfl (by simp [lgE, lgEs, lgIts, lgS, lgI, lgT, lgB, hl]) _ hj
    obtain ⟨_, j, rfl, hn⟩ := ks_cons hj; replace hj := hn; clear hn
    exact ⟨_, hj, .else_ h1'⟩
  | _, _, _, .elseif_ h1, hl => fun j hj => by
    try simp only [lgE, lgEs, lgIts, lgS, lgI, lgT, lgB, Bool.and_eq_true] at hl
    obtain ⟨_, j, rfl, hn⟩ := ks_cons hj; replace hj := hn; clear hn
    obtain ⟨j, hj, h1'⟩ := I_re h1 (by simp [lgE, lgEs, lgIts, lgS, lgI, lgT, lgB, hl]) _ hj
    exact ⟨_, hj, .elseif_ h1'⟩
end

/-- A program without shorthands is the same program with its tokens on other lines. -/
theorem program_re {i j : List T} {b : Block} (h : Program L i b) (hl : lgB b = true) (hj : ks j = ks i) : Program L j b := by
  obtain ⟨r, hr, h'⟩ := B_re h rfl hl j hj
  cases ks_nil hr
  exact h'

end Verif.Reline
