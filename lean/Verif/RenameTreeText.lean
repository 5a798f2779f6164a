import Verif.RenameTree
import Verif.SyntaxLemmas
import Mathlib.Data.List.Forall2
/-
Renaming a tree amounts to changing the names in its tokens.
-/
namespace Verif.Resolve
open Syntax
open LuaGrammar hiding Name
open Paren (Op Lang)

/-- Tokens that differ at most in the name, if they are identifiers. -/
def SameButName (t t' : T) : Prop := t.line = t'.line ∧ (t.k = t'.k ∨ ∃ x y, t.k = .id x ∧ t'.k = .id y)

/-- Texts that differ at most in names. -/
abbrev Ren (i i' : List T) : Prop := List.Forall₂ SameButName i i'

theorem rk {t : T} {m m' : List T} (h : Ren m m') : Ren (t :: m) (t :: m') := .cons ⟨rfl, .inl rfl⟩ h
theorem ri {x y : Nm} {l : Nat} {m m' : List T} (h : Ren m m') : Ren (⟨.id x, l⟩ :: m) (⟨.id y, l⟩ :: m') := .cons ⟨rfl, .inr ⟨x, y, rfl, rfl⟩⟩ h

theorem Ren.next {P : K → Prop} (hP : ∀ x, ¬ P (.id x)) {r r' : List T} (h : Ren r r') : Next P r' ↔ Next P r := by
  cases h with
  | nil => rfl
  | @cons t t' m m' h hm =>
    have key : P t'.k ↔ P t.k := by
      rcases h.2 with h | ⟨x, y, h1, h2⟩
      · rw [h]
      · simp [h1, h2, hP]
    constructor
    · rintro ⟨_, _, he, hp⟩; cases he; exact ⟨t, m, rfl, key.1 hp⟩
    · rintro ⟨_, _, he, hp⟩; cases he; exact ⟨t', m', rfl, key.2 hp⟩

theorem Ren.onLine {l : Nat} {r r' : List T} (h : Ren r r') : OnLine l r' ↔ OnLine l r := by
  cases h with
  | nil => rfl
  | @cons t t' m m' h hm =>
    constructor
    · rintro ⟨_, _, he, hp⟩; cases he; exact ⟨t, m, rfl, h.1.trans hp⟩
    · rintro ⟨_, _, he, hp⟩; cases he; exact ⟨t', m', rfl, h.1.symm.trans hp⟩

theorem Ren.later {v : Option Nat} {r r' : List T} (h : Ren r r') : Later v r' ↔ Later v r := by
  unfold Later
  refine exists_congr fun l => and_congr_right fun _ => ?_
  cases h with
  | nil => rfl
  | @cons t t' m m' h hm =>
    constructor
    · intro hh _ _ he; cases he; rw [h.1]; exact hh t' m' rfl
    · intro hh _ _ he; cases he; rw [← h.1]; exact hh t m rfl

mutual
theorem openEnd_s : ∀ (e : Ex) (ns : List Nm), openEnd (sE ns e) = openEnd e
  | .var _, _ | .num _, _ | .str _, _ | .cst _, _ | .vararg, _ | .func _ _, _ | .group _, _ | .member _ _, _ | .index _ _, _ | .call _ _ _, _
  | .method _ _ _ _, _ | .table _, _ => by simp only [sE, openEnd]
  | .un o e, ns => by simp only [sE, openEnd]; exact openEnd_s e _
  | .bin o l r, ns => by simp only [sE, openEnd]; exact openEnd_s r _
end

theorem Ren.done {L : Lang} {e : Ex} {ns : List Nm} {r r' : List T} (h : Ren r r') (hd : Done L e r) : Done L (sE ns e) r' := by
  unfold Done
  rw [openEnd_s, h.next (by simp), h.next (by simp [Suffix])]
  exact hd

theorem Ren.doneList {L : Lang} {r r' : List T} (h : Ren r r') : ∀ {es : Exs} {ns : List Nm}, DoneList L es r → DoneList L (sEs ns es) r'
  | .nil, _, _ => by simp only [sEs, DoneList]
  | .cons e .nil, ns, hd => by
    simp only [sEs, DoneList] at hd ⊢
    exact ⟨h.done hd.1, by rw [h.next (by simp)]; exact hd.2⟩
  | .cons e (.cons e' es), ns, hd => by
    have hd' : DoneList L (.cons e' es) r := hd
    have := Ren.doneList h (ns := ns.drop (takes (evE e))) hd'
    simp only [sEs, DoneList] at this ⊢
    exact this

theorem Ren.closedOn {l : Nat} {m n m' n' : List T} (hm : Ren m m') (hn : Ren n n') (hs : n' <:+ m') (h : ClosedOn l m n) : ClosedOn l m' n' := by
  obtain ⟨p, rfl⟩ := h
  obtain ⟨q, rfl⟩ := hs
  have hlen := hm.length_eq
  have hlen' := hn.length_eq
  simp only [List.length_append, List.length_cons] at hlen
  obtain ⟨a, c, rfl, ha⟩ : ∃ a c, q = a ++ [c] ∧ a.length = p.length := by
    rcases List.eq_nil_or_concat q with h | ⟨a, c, h⟩
    · subst h; simp at hlen; omega
    · refine ⟨a, c, by rw [h, List.concat_eq_append], ?_⟩
      rw [h] at hlen; simp at hlen; omega
  rw [List.append_assoc] at hm
  have h2 := List.forall₂_iff_get.1 hm
  have hget := h2.2 p.length (by simp) (by simp [ha])
  simp only [List.get_eq_getElem] at hget
  rw [List.getElem_append_right (by omega), List.getElem_append_right (by omega)] at hget
  simp only [ha, Nat.sub_self, List.singleton_append, List.getElem_cons_zero] at hget
  have hc : c = ⟨.rp, l⟩ := by
    obtain ⟨h1, h2 | ⟨x, y, h2, _⟩⟩ := hget
    · cases c; simp only [T.mk.injEq]; exact ⟨h2.symm, h1.symm⟩
    · cases h2
  exact ⟨a, by simp [hc]⟩

/-! Each rule of the grammar. -/

theorem names_ren {i r : List T} {xs : List Nm} (h : Names i r xs) : ∀ (ns : List Nm) {r' : List T}, Ren r r' → ∃ i', Ren i i' ∧ Names i' r' (sNs ns xs) := by
  induction h with
  | one => intro ns r' hr; exact ⟨_, ri hr, .one⟩
  | cons h ih => intro ns r' hr; obtain ⟨i', hi, g⟩ := ih ns.tail hr; exact ⟨_, ri (rk hi), .cons g⟩

theorem attr_ren {L : Lang} {i r : List T} {a : Option Nm} (h : Attr L i r a) {r' : List T} (hr : Ren r r') : ∃ i', Ren i i' ∧ Attr L i' r' a := by
  cases h with
  | none h => exact ⟨r', hr, .none fun hL => by rw [hr.next (by simp)]; exact h hL⟩
  | some hL ha => exact ⟨_, rk (rk (rk hr)), .some hL ha⟩

theorem locals_ren {L : Lang} {i r : List T} {xs : List (Nm × Option Nm)} (h : Locals L i r xs) : ∀ (ns : List Nm) {r' : List T}, Ren r r' →
    ∃ i', Ren i i' ∧ Locals L i' r' (sXs ns xs) := by
  induction h with
  | one ha hn =>
    intro ns r' hr
    obtain ⟨i', hi, g⟩ := attr_ren ha hr
    exact ⟨_, ri hi, .one g (by rw [hr.next (by simp)]; exact hn)⟩
  | cons ha h ih =>
    intro ns r' hr
    obtain ⟨m', hm, g⟩ := ih ns.tail hr
    obtain ⟨i', hi, g'⟩ := attr_ren ha (rk hm)
    exact ⟨_, ri hi, .cons g' g⟩

theorem pars_ren {i r : List T} {ps : List Param} (h : Pars i r ps) : ∀ (ns : List Nm) {r' : List T}, Ren r r' → ∃ i', Ren i i' ∧ Pars i' r' (sPs ns ps) := by
  induction h with
  | one h =>
    intro ns r' hr
    cases h with
    | dots => exact ⟨_, rk (rk hr), .one .dots⟩
    | name => exact ⟨_, ri (rk hr), .one .name⟩
  | cons h _ ih =>
    intro ns r' hr
    cases h with
    | dots => obtain ⟨m', hm, g⟩ := ih ns hr; exact ⟨_, rk (rk hm), .cons .dots g⟩
    | name => obtain ⟨m', hm, g⟩ := ih ns.tail hr; exact ⟨_, ri (rk hm), .cons .name g⟩

theorem params_ren {i r : List T} {ps : List Param} (h : Params i r ps) (ns : List Nm) {r' : List T} (hr : Ren r r') : ∃ i', Ren i i' ∧ Params i' r' (sPs ns ps) := by
  cases h with
  | nil => exact ⟨_, rk hr, .nil⟩
  | some h => obtain ⟨i', hi, g⟩ := pars_ren h ns hr; exact ⟨i', hi, .some g⟩

theorem keys_ren {i r : List T} {xs : List Nm} (h : Keys i r xs) : ∀ (ns : List Nm) {r' : List T}, Ren r r' → ∃ i', Ren i i' ∧ Keys i' r' (sNs ns xs) := by
  induction h with
  | nil h => intro ns r' hr; exact ⟨r', hr, .nil (by rw [hr.next (by simp)]; exact h)⟩
  | cons h ih => intro ns r' hr; obtain ⟨i', hi, g⟩ := ih ns.tail hr; exact ⟨_, rk (ri hi), .cons g⟩

theorem name_ren {i r : List T} {f : FnName} (h : LuaGrammar.Name i r f) (ns : List Nm) {r' : List T} (hr : Ren r r') :
    ∃ i', Ren i i' ∧ LuaGrammar.Name i' r' (sFn ns f) := by
  cases h with
  | func h hn => obtain ⟨i', hi, g⟩ := keys_ren h ns.tail hr; exact ⟨_, ri hi, .func g (by rw [hr.next (by simp)]; exact hn)⟩
  | method h => obtain ⟨i', hi, g⟩ := keys_ren h ns.tail (rk (ri hr)); exact ⟨_, ri hi, .method g⟩

mutual
theorem E_ren {L : Lang} {k : Nat} {i r : List T} {e : Ex} : E L k i r e → ∀ (ns : List Nm) {r' : List T}, Ren r r' → ∃ i', Ren i i' ∧ E L k i' r' (sE ns e)
  | .up h, ns, _, hr => let ⟨i', hi, g⟩ := E_ren h ns hr; ⟨i', hi, .up g⟩
  | .left ho hl h h', ns, _, hr => let ⟨_, hm, g'⟩ := E_ren h' _ hr; let ⟨i', hi, g⟩ := E_ren h ns (rk hm); ⟨i', hi, .left ho hl g g'⟩
  | .concat h h', ns, _, hr => let ⟨_, hm, g'⟩ := E_ren h' _ hr; let ⟨i', hi, g⟩ := E_ren h ns (rk hm); ⟨i', hi, .concat g g'⟩
  | .un ho h, ns, _, hr => let ⟨_, hi, g⟩ := E_ren h ns hr; ⟨_, rk hi, .un ho g⟩
  | .pow h h', ns, _, hr => let ⟨_, hm, g'⟩ := E_ren h' _ hr; let ⟨i', hi, g⟩ := E_ren h ns (rk hm); ⟨i', hi, .pow g g'⟩
  | .cst, _, _, hr => ⟨_, rk hr, .cst⟩
  | .num, _, _, hr => ⟨_, rk hr, .num⟩
  | .str, _, _, hr => ⟨_, rk hr, .str⟩
  | .dots, _, _, hr => ⟨_, rk hr, .dots⟩
  | .table h, ns, _, hr => let ⟨_, hi, g⟩ := Items_ren h ns hr; ⟨_, rk hi, .table g⟩
  | .func h, ns, _, hr => let ⟨_, hi, g⟩ := Body_ren h ns _ hr; ⟨_, rk hi, .func g⟩
  | .pre h, ns, _, hr => let ⟨_, hi, g⟩ := P_ren h ns hr; ⟨_, hi, .pre g⟩
theorem P_ren {L : Lang} {i r : List T} {e : Ex} : P L i r e → ∀ (ns : List Nm) {r' : List T}, Ren r r' → ∃ i', Ren i i' ∧ P L i' r' (sE ns e)
  | .var, _, _, hr => ⟨_, ri hr, .var⟩
  | .group h, ns, _, hr => let ⟨_, hi, g⟩ := E_ren h ns (rk hr); ⟨_, rk hi, .group g⟩
  | .member h, ns, _, hr => let ⟨_, hi, g⟩ := P_ren h ns (rk (ri hr)); ⟨_, hi, .member g⟩
  | .index h h', ns, _, hr => let ⟨_, hm, g'⟩ := E_ren h' _ (rk hr); let ⟨i', hi, g⟩ := P_ren h ns (rk hm); ⟨i', hi, .index g g'⟩
  | .call h h', ns, _, hr => let ⟨_, hm, g'⟩ := Args_ren h' _ hr; let ⟨i', hi, g⟩ := P_ren h ns (rk hm); ⟨i', hi, .call g g'⟩
  | .callBare h h', ns, _, hr => let ⟨_, hm, g'⟩ := Bare_ren h' _ hr; let ⟨i', hi, g⟩ := P_ren h ns hm; ⟨i', hi, .callBare g g'⟩
  | .method h h', ns, _, hr => let ⟨_, hm, g'⟩ := Args_ren h' _ hr; let ⟨i', hi, g⟩ := P_ren h ns (rk (ri (rk hm))); ⟨i', hi, .method g g'⟩
  | .methodBare h h', ns, _, hr => let ⟨_, hm, g'⟩ := Bare_ren h' _ hr; let ⟨i', hi, g⟩ := P_ren h ns (rk (ri hm)); ⟨i', hi, .methodBare g g'⟩
theorem Bare_ren {L : Lang} {i r : List T} {e : Ex} : Bare L i r e → ∀ (ns : List Nm) {r' : List T}, Ren r r' → ∃ i', Ren i i' ∧ Bare L i' r' (sE ns e)
  | .str, _, _, hr => ⟨_, rk hr, .str⟩
  | .table h, ns, _, hr => let ⟨_, hi, g⟩ := Items_ren h ns hr; ⟨_, rk hi, .table g⟩
theorem Args_ren {L : Lang} {i r : List T} {e : Exs} : Args L i r e → ∀ (ns : List Nm) {r' : List T}, Ren r r' → ∃ i', Ren i i' ∧ Args L i' r' (sEs ns e)
  | .nil, _, _, hr => ⟨_, rk hr, .nil⟩
  | .some h, ns, _, hr => let ⟨_, hi, g⟩ := Es_ren h ns (rk hr); ⟨_, hi, .some g⟩
theorem Es_ren {L : Lang} {i r : List T} {e : Exs} : Es L i r e → ∀ (ns : List Nm) {r' : List T}, Ren r r' → ∃ i', Ren i i' ∧ Es L i' r' (sEs ns e)
  | .one h, ns, _, hr => let ⟨_, hi, g⟩ := E_ren h ns hr; ⟨_, hi, .one g⟩
  | .cons h h', ns, _, hr => let ⟨_, hm, g'⟩ := Es_ren h' _ hr; let ⟨i', hi, g⟩ := E_ren h ns (rk hm); ⟨i', hi, .cons g g'⟩
theorem Items_ren {L : Lang} {i r : List T} {e : Its} : Items L i r e → ∀ (ns : List Nm) {r' : List T}, Ren r r' → ∃ i', Ren i i' ∧ Items L i' r' (sIts ns e)
  | .nil, _, _, hr => ⟨_, rk hr, .nil⟩
  | .pos h h', ns, _, hr => let ⟨_, hm, g'⟩ := After_ren h' _ hr; let ⟨i', hi, g⟩ := E_ren h ns hm; ⟨i', hi, .pos g g'⟩
  | .named h h', _, _, hr => let ⟨_, hm, g'⟩ := After_ren h' _ hr; let ⟨_, hi, g⟩ := E_ren h _ hm; ⟨_, ri (rk hi), .named g g'⟩
  | .keyed h h' h'', ns, _, hr =>
    let ⟨_, hm, g''⟩ := After_ren h'' _ hr
    let ⟨_, hj, g'⟩ := E_ren h' _ hm
    let ⟨_, hi, g⟩ := E_ren h ns (rk (rk hj))
    ⟨_, rk hi, .keyed g g' g''⟩
theorem After_ren {L : Lang} {i r : List T} {e : Its} : After L i r e → ∀ (ns : List Nm) {r' : List T}, Ren r r' → ∃ i', Ren i i' ∧ After L i' r' (sIts ns e)
  | .close, _, _, hr => ⟨_, rk hr, .close⟩
  | .semi h, ns, _, hr => let ⟨_, hi, g⟩ := Items_ren h ns hr; ⟨_, rk hi, .semi g⟩
  | .comma h, ns, _, hr => let ⟨_, hi, g⟩ := Items_ren h ns hr; ⟨_, rk hi, .comma g⟩
theorem Body_ren {L : Lang} {i r : List T} {ps : List Param} {b : Block} : Body L i r ps b → ∀ (ns ns' : List Nm) {r' : List T}, Ren r r' →
    ∃ i', Ren i i' ∧ Body L i' r' (sPs ns ps) (sB ns' b)
  | .mk h h', ns, ns', _, hr => let ⟨_, hm, g'⟩ := B_ren h' ns' (rk hr); let ⟨_, hi, g⟩ := params_ren h ns hm; ⟨_, rk hi, .mk g g'⟩
theorem B_ren {L : Lang} {v : Option Nat} {i r : List T} {b : Block} : B L v i r b → ∀ (ns : List Nm) {r' : List T}, Ren r r' → ∃ i', Ren i i' ∧ B L v i' r' (sB ns b)
  | .nil h, _, r', hr => ⟨r', hr, .nil (by
      rcases h with h | h | h
      · subst h; cases hr; exact .inl rfl
      · exact .inr (.inl (hr.later.2 h))
      · exact .inr (.inr ((hr.next (by simp [Closes])).2 h)))⟩
  | .semi hl h, ns, _, hr => let ⟨_, hi, g⟩ := B_ren h ns hr; ⟨_, rk hi, by rw [sB]; exact .semi (fun hc => hl ((rk hi).later.1 hc)) g⟩
  | .cons hl h h', ns, _, hr =>
    let ⟨_, hm, g'⟩ := B_ren h' _ hr
    let ⟨i', hi, g⟩ := S_ren h ns hm
    ⟨i', hi, .cons (fun hc => hl (hi.later.1 hc)) g g'⟩
theorem S_ren {L : Lang} {v : Option Nat} {i r : List T} {s : St} : S L v i r s → ∀ (ns : List Nm) {r' : List T}, Ren r r' → ∃ i', Ren i i' ∧ S L v i' r' (sS ns s)
  | .do_ h, ns, _, hr => let ⟨_, hi, g⟩ := B_ren h ns (rk hr); ⟨_, rk hi, .do_ g⟩
  | .if_ h, ns, _, hr => let ⟨_, hi, g⟩ := I_ren h ns hr; ⟨_, rk hi, .if_ g⟩
  | .while_ h h', ns, _, hr => let ⟨_, hm, g'⟩ := B_ren h' _ (rk hr); let ⟨_, hi, g⟩ := E_ren h ns (rk hm); ⟨_, rk hi, .while_ g g'⟩
  | .whileShort h hd hn hc h' hl, ns, _, hr =>
    let ⟨_, hm, g'⟩ := B_ren h' _ hr
    let ⟨_, hi, g⟩ := E_ren h ns hm
    ⟨_, rk hi, .whileShort g (hm.done hd) (by rw [hm.next (by simp)]; exact hn) (hi.closedOn hm g.suf hc) g' (by rw [hr.onLine]; exact hl)⟩
  | .repeat_ h h' hd, ns, _, hr => let ⟨_, hm, g'⟩ := E_ren h' _ hr; let ⟨_, hi, g⟩ := B_ren h ns (rk hm); ⟨_, rk hi, .repeat_ g g' (hr.done hd)⟩
  | .fornum h h' h'', ns, _, hr =>
    let ⟨_, hq, g''⟩ := B_ren h'' _ (rk hr)
    let ⟨_, hn, g'⟩ := E_ren h' _ (rk hq)
    let ⟨_, hm, g⟩ := E_ren h _ (rk hn)
    ⟨_, rk (ri (rk hm)), .fornum g g' g''⟩
  | .forstep h h' h'' h''', ns, _, hr =>
    let ⟨_, hq, g'''⟩ := B_ren h''' _ (rk hr)
    let ⟨_, hp, g''⟩ := E_ren h'' _ (rk hq)
    let ⟨_, hn, g'⟩ := E_ren h' _ (rk hp)
    let ⟨_, hm, g⟩ := E_ren h _ (rk hn)
    ⟨_, rk (ri (rk hm)), .forstep g g' g'' g'''⟩
  | .forin h h' h'', ns, _, hr =>
    let ⟨_, hq, g''⟩ := B_ren h'' _ (rk hr)
    let ⟨_, hn, g'⟩ := Es_ren h' _ (rk hq)
    let ⟨_, hm, g⟩ := names_ren h ns (rk hn)
    ⟨_, rk hm, .forin g g' g''⟩
  | .break_, _, _, hr => ⟨_, rk hr, .break_⟩
  | .returnNone h, _, _, hr => ⟨_, rk hr, .returnNone (by rwa [hr.next (by simp [Closes]), hr.next (by simp), hr.later])⟩
  | .return_ hl h hd, ns, _, hr => let ⟨_, hi, g⟩ := Es_ren h ns hr; ⟨_, rk hi, .return_ (by rwa [hi.later]) g (hr.doneList hd)⟩
  | .local_ h hn, ns, _, hr => let ⟨_, hi, g⟩ := locals_ren h ns hr; ⟨_, rk hi, .local_ g (by rwa [hr.next (by simp)])⟩
  | .localAssign h h' hd, ns, _, hr =>
    let ⟨_, hm, g'⟩ := Es_ren h' _ hr
    let ⟨_, hi, g⟩ := locals_ren h ns (rk hm)
    ⟨_, rk hi, .localAssign g g' (hr.doneList hd)⟩
  | .localfn h, ns, _, hr => let ⟨_, hi, g⟩ := Body_ren h _ _ hr; ⟨_, rk (rk (ri hi)), .localfn g⟩
  | .goto_, _, _, hr => ⟨_, rk (ri hr), .goto_⟩
  | .label, _, _, hr => ⟨_, rk (ri (rk hr)), .label⟩
  | .func h h', ns, _, hr => let ⟨_, hm, g'⟩ := Body_ren h' _ _ hr; let ⟨_, hi, g⟩ := name_ren h ns hm; ⟨_, rk hi, .func g g'⟩
  | .assign hf h h' hd, ns, _, hr =>
    let ⟨_, hm, g'⟩ := Es_ren h' _ hr
    let ⟨_, hi, g⟩ := Es_ren h ns (rk hm)
    ⟨_, hi, .assign (by rwa [hi.next (by simp)]) g g' (hr.doneList hd)⟩
  | .opassign hf h h' hd, ns, _, hr =>
    let ⟨_, hm, g'⟩ := E_ren h' _ hr
    let ⟨_, hi, g⟩ := E_ren h ns (rk hm)
    ⟨_, hi, .opassign (by rwa [hi.next (by simp)]) g g' (hr.done hd)⟩
  | .call h hd hn, ns, _, hr => let ⟨_, hi, g⟩ := P_ren h ns hr; ⟨_, hi, .call g (hr.done (ns := ns) hd) (by rwa [hr.next (by simp)])⟩
  | .method h hd hn, ns, _, hr => let ⟨_, hi, g⟩ := P_ren h ns hr; ⟨_, hi, .method g (hr.done (ns := ns) hd) (by rwa [hr.next (by simp)])⟩
  | .print h hn, ns, _, hr => let ⟨_, hi, g⟩ := Es_ren h ns hr; ⟨_, rk hi, .print g (by rwa [hr.next (by simp [Suffix])])⟩
theorem I_ren {L : Lang} {i r : List T} {s : If} : I L i r s → ∀ (ns : List Nm) {r' : List T}, Ren r r' → ∃ i', Ren i i' ∧ I L i' r' (sI ns s)
  | .long h ht h' h'', ns, _, hr =>
    let ⟨_, hp, g''⟩ := Tl_ren h'' _ hr
    let ⟨_, hn, g'⟩ := B_ren h' _ hp
    let ⟨_, hm, g⟩ := E_ren h ns (rk hn)
    ⟨_, hm, .long g ht g' g''⟩
  | .short h hd hn hc h' he hl, ns, _, hr =>
    let ⟨_, hm, g'⟩ := B_ren h' _ hr
    let ⟨_, hi, g⟩ := E_ren h ns hm
    ⟨_, hi, .short g (hm.done hd) (by rwa [hm.next (by simp [Then])]) (hi.closedOn hm g.suf hc) g' (by rwa [hr.onLine, hr.next (by simp)])
      (by rw [hr.onLine]; exact hl)⟩
  | .shortElse h hd hn hc h' h'' hl, ns, _, hr =>
    let ⟨_, hp, g''⟩ := B_ren h'' _ hr
    let ⟨_, hm, g'⟩ := B_ren h' _ (rk hp)
    let ⟨_, hi, g⟩ := E_ren h ns hm
    ⟨_, hi, .shortElse g (hm.done hd) (by rwa [hm.next (by simp [Then])]) (hi.closedOn hm g.suf hc) g' g'' (by rw [hr.onLine]; exact hl)⟩
theorem Tl_ren {L : Lang} {i r : List T} {t : Tail} : Tl L i r t → ∀ (ns : List Nm) {r' : List T}, Ren r r' → ∃ i', Ren i i' ∧ Tl L i' r' (sT ns t)
  | .end_, _, _, hr => ⟨_, rk hr, .end_⟩
  | .else_ h, ns, _, hr => let ⟨_, hi, g⟩ := B_ren h ns (rk hr); ⟨_, rk hi, .else_ g⟩
  | .elseif_ h, ns, _, hr => let ⟨_, hi, g⟩ := I_ren h ns hr; ⟨_, rk hi, .elseif_ g⟩
end

end Verif.Resolve
