import Verif.FineReparse
import Verif.SyntaxComplete
/-
Programs that are parsed have fine trees, if they are tidy.
-/
set_option linter.unusedVariables false
set_option linter.unusedSimpArgs false
namespace Verif.Mini
open Syntax Tidy
open LuaGrammar hiding Name
open Paren (Op Lang prec)

variable {L : Lang}

theorem no_lp {e : Ex} {r : List T} (h : Done L e r) (ho : openEnd e = true) : ¬ Next (· = .lp) r := by
  rintro ⟨t, r', e, hk⟩
  exact h.2 ho ⟨t, r', e, .inr (.inr (.inl hk))⟩

theorem no_lps : ∀ {es : Exs} {r : List T}, DoneList L es r → openEs es = true → ¬ Next (· = .lp) r
  | .nil, r, h, ho => by simp [openEs] at ho
  | .cons e .nil, r, h, ho => no_lp h.1 ho
  | .cons e (.cons f es), r, h, ho => no_lps (es := .cons f es) (by simpa only [DoneList] using h) ho

/-! ### What comes first -/

mutual
theorem E_lead : ∀ {k : Nat} {i r : List T} {e : Ex}, E L k i r e → leadLp e = true → Next (· = .lp) i
  | _, _, _, _, .up h, hl => E_lead h hl
  | _, _, _, _, .left _ _ h _, hl => E_lead h (by simpa only [leadLp] using hl)
  | _, _, _, _, .concat h _, hl => E_lead h (by simpa only [leadLp] using hl)
  | _, _, _, _, .un _ h, hl => by simp [leadLp] at hl
  | _, _, _, _, .pow h _, hl => E_lead h (by simpa only [leadLp] using hl)
  | _, _, _, _, .cst, hl | _, _, _, _, .num, hl | _, _, _, _, .str, hl | _, _, _, _, .dots, hl | _, _, _, _, .table _, hl
  | _, _, _, _, .func _, hl => by simp [leadLp] at hl
  | _, _, _, _, .pre h, hl => P_lead h hl
theorem P_lead : ∀ {i r : List T} {e : Ex}, P L i r e → leadLp e = true → Next (· = .lp) i
  | _, _, _, .var, hl => by simp [leadLp] at hl
  | _, _, _, .group h, hl => ⟨_, _, rfl, rfl⟩
  | _, _, _, .member h, hl => P_lead h (by simpa only [leadLp] using hl)
  | _, _, _, .index h _, hl => P_lead h (by simpa only [leadLp] using hl)
  | _, _, _, .call h _, hl => P_lead h (by simpa only [leadLp] using hl)
  | _, _, _, .callBare h _, hl => P_lead h (by simpa only [leadLp] using hl)
  | _, _, _, .method h _, hl => P_lead h (by simpa only [leadLp] using hl)
  | _, _, _, .methodBare h _, hl => P_lead h (by simpa only [leadLp] using hl)
end

theorem Es_lead {i r : List T} {es : Exs} (h : Es L i r es) (hl : leadEs es = true) : Next (· = .lp) i := by
  cases h with
  | one h => exact E_lead h hl
  | cons h _ => exact E_lead h hl

theorem S_lead {v : Option Nat} {i r : List T} {s : St} (h : S L v i r s) (hl : leadS s = true) : Next (· = .lp) i := by
  cases h with
  | assign _ h _ _ => exact Es_lead h hl
  | opassign _ h _ _ => exact E_lead h hl
  | call h _ _ => exact P_lead h hl
  | method h _ _ => exact P_lead h hl
  | _ => simp [leadS] at hl

theorem B_lead {v : Option Nat} {i r : List T} {b : Block} (h : B L v i r b) (hl : leadB b = true) : Next (· = .lp) i := by
  cases h with
  | cons _ h _ => exact S_lead h hl
  | _ => simp [leadB] at hl

/-! ### What comes last -/

theorem B_closes {v : Option Nat} {i r : List T} {b : Block} (h : B L v i r b) (hc : Next Closes i) : b = .nil ∧ i = r := by
  cases h with
  | nil => exact ⟨rfl, rfl⟩
  | semi => rw [next_cons] at hc; simp [Closes] at hc
  | cons _ h _ =>
    obtain ⟨t, q, rfl, h1, -⟩ := S_start h
    rw [next_cons] at hc
    exact absurd hc h1

theorem B_end : ∀ {v : Option Nat} {i r : List T} {b : Block}, B L v i r b → r = [] ∨ Later v r ∨ Next Closes r
  | _, _, _, _, .nil h => h
  | _, _, _, _, .semi _ h => B_end h
  | _, _, _, _, .cons _ _ h => B_end h

theorem line_closes {l : Nat} {i r : List T} {b : Block} (h : B L (some l) i r b) (ho : OnLine l r) : Next Closes r := by
  obtain ⟨t, q, rfl, hl⟩ := ho
  rcases B_end h with h | h | h
  · cases h
  · obtain ⟨l', h1, h2⟩ := h
    cases h1
    have := h2 _ _ rfl
    omega
  · exact h

theorem I_flag {i r : List T} {s : If} (h : I L i r s) (hf : flagI s = some true) : Next Closes r := by
  cases h with
  | long => simp [flagI] at hf
  | short _ _ _ _ hb _ hd => cases hf; exact line_closes hb (hd.1 rfl)
  | shortElse _ _ _ _ _ hb hd => cases hf; exact line_closes hb (hd.1 rfl)

theorem S_flag {v : Option Nat} {i r : List T} {s : St} (h : S L v i r s) (hf : flag s = some true) : Next Closes r := by
  cases h with
  | if_ h => exact I_flag h hf
  | whileShort _ _ _ _ hb hd => cases hf; exact line_closes hb (hd.1 rfl)
  | _ => simp [flag] at hf

theorem dangle_flag {s : St} (h : dangleS false s = true) : flag s = some true := by
  cases s <;> simp only [dangleS] at h <;> try cases h
  · rename_i i
    cases i <;> simp_all [dangleI, flag, flagI]
  · simp_all [flag]

mutual
theorem S_dangle : ∀ {v : Option Nat} {i r : List T} {s : St}, S L v i r s → dangleS false s = true → ¬ Next (· = .kElse) r
  | _, _, _, _, .if_ h, hd => I_dangle h (by simpa only [dangleS] using hd)
  | _, _, _, _, .whileShort _ _ _ _ hb _, hd => B_dangle hb (by simp only [dangleS, Bool.and_eq_true] at hd; exact hd.2)
  | _, _, _, _, .do_ .., hd | _, _, _, _, .while_ .., hd | _, _, _, _, .repeat_ .., hd | _, _, _, _, .fornum .., hd | _, _, _, _, .forstep .., hd
  | _, _, _, _, .forin .., hd | _, _, _, _, .break_, hd | _, _, _, _, .returnNone _, hd | _, _, _, _, .return_ .., hd | _, _, _, _, .local_ .., hd
  | _, _, _, _, .localAssign .., hd | _, _, _, _, .localfn _, hd | _, _, _, _, .goto_, hd | _, _, _, _, .label, hd | _, _, _, _, .func .., hd
  | _, _, _, _, .assign .., hd | _, _, _, _, .opassign .., hd | _, _, _, _, .call .., hd | _, _, _, _, .method .., hd
  | _, _, _, _, .print .., hd => by simp [dangleS] at hd
theorem I_dangle : ∀ {i r : List T} {s : If}, I L i r s → dangleI false s = true → ¬ Next (· = .kElse) r
  | _, _, _, .long .., hd => by simp [dangleI] at hd
  | _, _, _, .short _ _ _ _ _ he hl, hd => fun hn => he ⟨hl.1 (by simpa [dangleI] using hd), hn⟩
  | _, _, _, .shortElse _ _ _ _ _ hb hl, hd => B_dangle hb (by simp only [dangleI, Bool.and_eq_true] at hd; exact hd.2)
theorem B_dangle : ∀ {v : Option Nat} {i r : List T} {b : Block}, B L v i r b → dangleB false b = true → ¬ Next (· = .kElse) r
  | _, _, _, _, .nil _, hd => by simp [dangleB] at hd
  | _, _, _, _, .semi _ h, hd => B_dangle h (by simpa only [dangleB] using hd)
  | _, _, _, _, .cons (s := s) (b := b) _ h h', hd => by
    have ih := S_dangle h
    have ih' := B_dangle h'
    rw [dangleB] at hd
    split at hd
    · obtain ⟨rfl, rfl⟩ := B_closes h' (S_flag h (dangle_flag hd))
      exact ih hd
    · exact ih' hd
end

mutual
theorem S_open : ∀ {v : Option Nat} {i r : List T} {s : St} {sh : Bool}, S L v i r s → tS L sh s → openS s = true → ¬ Next (· = .lp) r
  | _, _, _, _, _, .if_ h, ht, ho => I_open h (by simpa only [tS] using ht) (by simpa only [openS] using ho)
  | _, _, _, _, _, .whileShort _ h _ _ hb _, ht, ho => by
    rw [tS] at ht; rw [openS] at ho
    exact B_open hb ht.2.2.1 ho fun _ => no_lp h (group_open ht.1)
  | _, _, _, _, _, .repeat_ _ _ h, ht, ho => no_lp h (by simpa only [openS] using ho)
  | _, _, _, _, _, .return_ _ _ h, ht, ho => no_lps h (by simpa only [openS] using ho)
  | _, _, _, _, _, .localAssign _ _ h, ht, ho => no_lps h (by simpa only [openS] using ho)
  | _, _, _, _, _, .assign _ _ _ h, ht, ho => no_lps h (by simpa only [openS] using ho)
  | _, _, _, _, _, .opassign _ _ _ h, ht, ho => no_lp h (by simpa only [openS] using ho)
  | _, _, _, _, _, .call _ h _, ht, ho => no_lp h rfl
  | _, _, _, _, _, .method _ h _, ht, ho => no_lp h rfl
  | _, _, _, _, _, .print _ h, ht, ho => fun ⟨t, r, e, hk⟩ => h ⟨t, r, e, .inl (.inr (.inr (.inl hk)))⟩
  | _, _, _, _, _, .do_ .., _, hd | _, _, _, _, _, .while_ .., _, hd | _, _, _, _, _, .fornum .., _, hd | _, _, _, _, _, .forstep .., _, hd
  | _, _, _, _, _, .forin .., _, hd | _, _, _, _, _, .break_, _, hd | _, _, _, _, _, .localfn _, _, hd | _, _, _, _, _, .goto_, _, hd | _, _, _, _, _, .label, _, hd
  | _, _, _, _, _, .func .., _, hd => by simp [openS] at hd
  | _, _, _, _, _, .local_ .., _, hd | _, _, _, _, _, .returnNone _, _, hd => by simp [openS, openEs] at hd
theorem I_open : ∀ {i r : List T} {s : If} {sh : Bool}, I L i r s → tI L sh s → openI s = true → ¬ Next (· = .lp) r
  | _, _, _, _, .long .., ht, ho => by simp [openI] at ho
  | _, _, _, _, .short _ h _ _ hb _ _, ht, ho => by
    rw [tI] at ht; rw [openI] at ho
    exact B_open hb ht.2.2.1 ho fun _ => no_lp h (group_open ht.1)
  | _, _, _, _, .shortElse _ h _ _ _ hb _, ht, ho => by
    rw [tI] at ht; rw [openI] at ho
    exact B_open hb ht.2.2.2.1 ho nofun
theorem B_open : ∀ {v : Option Nat} {i r : List T} {b : Block} {sh o : Bool}, B L v i r b → tB L sh b → openB o b = true →
    (o = true → ¬ Next (· = .lp) i) → ¬ Next (· = .lp) r
  | _, _, _, _, _, _, .nil _, ht, ho, hi => hi (by simpa only [openB] using ho)
  | _, _, _, _, _, _, .semi _ h, ht, ho, hi => B_open h (by simpa only [tB] using ht) (o := false) (by simpa only [openB] using ho) nofun
  | _, _, _, _, _, _, .cons _ h h', ht, ho, hi => by
    rw [tB] at ht; rw [openB] at ho
    exact B_open h' ht.2.1 ho (S_open h ht.1)
end

/-! ### All of it -/

theorem bin_of {o : Op} (h : inLang L o = true) (ho : o = .concat ∨ o = .caret ∨ ∃ k, o ∈ leftOps k) : Binary L o := ⟨h, ho⟩

theorem left_lvl {k : Nat} {o : Op} (h : o ∈ leftOps k) : prec o = k ∧ lo o = k ∧ hi o = k + 1 := by
  have hk : k < 11 := by
    rcases Nat.lt_or_ge k 11 with hk | hk
    · exact hk
    · have : leftOps k = [] := by
        unfold leftOps
        split <;> first | omega | rfl
      rw [this] at h; cases h
  have : ∀ k < 11, ∀ o ∈ leftOps k, prec o = k ∧ lo o = k ∧ hi o = k + 1 := by decide
  exact this k hk o h

theorem Names_ne {i r : List T} {xs : List Nm} (h : Names i r xs) : xs ≠ [] := by cases h <;> simp

theorem Locals_ok : ∀ {i r : List T} {xs : List (Nm × Option Nm)}, Locals L i r xs → xs ≠ [] ∧ ∀ p ∈ xs, okAttr L p.2 := by
  have attr : ∀ {i r : List T} {a : Option Nm}, Attr L i r a → okAttr L a := by
    intro i r a h
    cases h with
    | none => intro n hn; cases hn
    | some h1 h2 => intro n hn; cases hn; exact ⟨h1, h2⟩
  intro i r xs h
  induction h with
  | one h _ => exact ⟨by simp, by simp; exact attr h⟩
  | cons h _ ih =>
    refine ⟨by simp, ?_⟩
    intro p hp
    rcases List.mem_cons.1 hp with rfl | hp
    · exact attr h
    · exact ih.2 p hp

mutual
theorem gE : ∀ {k : Nat} {i r : List T} {e : Ex} {sh : Bool}, E L k i r e → tE L sh e → fE false L sh e ∧ k ≤ lvl e
  | _, _, _, _, _, .up h, ht => let ⟨h1, h2⟩ := gE h ht; ⟨h1, Nat.le_of_succ_le h2⟩
  | _, _, _, _, _, .left ho hl h h', ht => by
    rw [tE] at ht
    have ⟨h1, h2⟩ := gE h ht.1
    have ⟨h3, h4⟩ := gE h' ht.2
    obtain ⟨e1, e2, e3⟩ := left_lvl ho
    rw [fE, lvl, e1, e2, e3]
    exact ⟨⟨⟨hl, .inr (.inr ⟨_, ho⟩)⟩, h2, h4, h1, h3⟩, Nat.le_refl _⟩
  | _, _, _, _, _, .concat h h', ht => by
    rw [tE] at ht
    have ⟨h1, h2⟩ := gE h ht.1
    have ⟨h3, h4⟩ := gE h' ht.2
    rw [fE]
    exact ⟨⟨⟨by cases L <;> rfl, .inl rfl⟩, h2, h4, h1, h3⟩, by simp only [lvl]; decide⟩
  | _, _, _, _, _, .un ho h, ht => by
    rw [tE] at ht
    have ⟨h1, h2⟩ := gE h ht
    rw [fE]
    exact ⟨⟨ho, h2, h1⟩, by simp only [lvl]; decide⟩
  | _, _, _, _, _, .pow h h', ht => by
    rw [tE] at ht
    have ⟨h1, h2⟩ := gE h ht.1
    have ⟨h3, h4⟩ := gE h' ht.2
    rw [fE]
    exact ⟨⟨⟨by cases L <;> rfl, .inr (.inl rfl)⟩, h2, h4, h1, h3⟩, by simp only [lvl]; decide⟩
  | _, _, _, _, _, .cst, ht => ⟨by simp only [fE], by simp only [lvl]; decide⟩
  | _, _, _, _, _, .num, ht => ⟨by simp only [fE], by simp only [lvl]; decide⟩
  | _, _, _, _, _, .str, ht => ⟨by simp only [fE], by simp only [lvl]; decide⟩
  | _, _, _, _, _, .dots, ht => ⟨by simp only [fE], by simp only [lvl]; decide⟩
  | _, _, _, _, _, .table h, ht => ⟨by rw [fE]; exact gItems h (by simpa only [tE] using ht), Nat.le_refl _⟩
  | _, _, _, _, _, .func h, ht => ⟨by rw [fE]; exact gBody h (by simpa only [tE] using ht), Nat.le_refl _⟩
  | _, _, _, _, _, .pre h, ht => by
    have ⟨h1, h2⟩ := gP h ht
    refine ⟨h1, ?_⟩
    cases h <;> exact Nat.le_refl _
theorem gP : ∀ {i r : List T} {e : Ex} {sh : Bool}, P L i r e → tE L sh e → fE false L sh e ∧ isPre e = true
  | _, _, _, _, .var, ht => ⟨by simp only [fE], rfl⟩
  | _, _, _, _, .group h, ht => by
    rw [tE] at ht; rw [fE]
    exact ⟨(gE h ht).1, rfl⟩
  | _, _, _, _, .member h, ht => by
    rw [tE] at ht; rw [fE]
    have ⟨h1, h2⟩ := gP h ht
    exact ⟨⟨h2, h1⟩, rfl⟩
  | _, _, _, _, .index h h', ht => by
    rw [tE] at ht; rw [fE]
    have ⟨h1, h2⟩ := gP h ht.1
    exact ⟨⟨h2, h1, (gE h' ht.2).1⟩, rfl⟩
  | _, _, _, _, .call h h', ht => by
    rw [tE] at ht; rw [fE]
    have ⟨h1, h2⟩ := gP h ht.1
    exact ⟨⟨h2, h1, gArgs h' ht.2, nofun⟩, rfl⟩
  | _, _, _, _, .callBare h h', ht => by
    rw [tE, tEs] at ht; rw [fE, fEs, fEs]
    have ⟨h1, h2⟩ := gP h ht.1
    have ⟨h3, h4⟩ := gBare h' ht.2.1
    exact ⟨⟨h2, h1, ⟨h3, trivial⟩, fun _ => h4⟩, rfl⟩
  | _, _, _, _, .method h h', ht => by
    rw [tE] at ht; rw [fE]
    have ⟨h1, h2⟩ := gP h ht.1
    exact ⟨⟨h2, h1, gArgs h' ht.2, nofun⟩, rfl⟩
  | _, _, _, _, .methodBare h h', ht => by
    rw [tE, tEs] at ht; rw [fE, fEs, fEs]
    have ⟨h1, h2⟩ := gP h ht.1
    have ⟨h3, h4⟩ := gBare h' ht.2.1
    exact ⟨⟨h2, h1, ⟨h3, trivial⟩, fun _ => h4⟩, rfl⟩
theorem gBare : ∀ {i r : List T} {e : Ex} {sh : Bool}, Bare L i r e → tE L sh e → fE false L sh e ∧ bareArg (.cons e .nil) = true
  | _, _, _, _, .str, ht => ⟨by simp only [fE], rfl⟩
  | _, _, _, _, .table h, ht => ⟨by rw [fE]; exact gItems h (by simpa only [tE] using ht), rfl⟩
theorem gArgs : ∀ {i r : List T} {es : Exs} {sh : Bool}, Args L i r es → tEs L sh es → fEs false L sh es
  | _, _, _, _, .nil, ht => by simp only [fEs]
  | _, _, _, _, .some h, ht => (gEs h ht).1
theorem gEs : ∀ {i r : List T} {es : Exs} {sh : Bool}, Es L i r es → tEs L sh es → fEs false L sh es ∧ es ≠ .nil
  | _, _, _, _, .one h, ht => by
    rw [tEs] at ht; rw [fEs, fEs]
    exact ⟨⟨(gE h ht.1).1, trivial⟩, by simp⟩
  | _, _, _, _, .cons h h', ht => by
    rw [tEs] at ht; rw [fEs]
    exact ⟨⟨(gE h ht.1).1, (gEs h' ht.2).1⟩, by simp⟩
theorem gItems : ∀ {i r : List T} {t : Its} {sh : Bool}, Items L i r t → tIts L sh t → fIts false L sh t
  | _, _, _, _, .nil, ht => by simp only [fIts]
  | _, _, _, _, .pos h h', ht => by
    rw [tIts] at ht; rw [fIts]
    exact ⟨(gE h ht.1).1, gAfter h' ht.2⟩
  | _, _, _, _, .named h h', ht => by
    rw [tIts] at ht; rw [fIts]
    exact ⟨(gE h ht.1).1, gAfter h' ht.2⟩
  | _, _, _, _, .keyed h0 h h', ht => by
    rw [tIts] at ht; rw [fIts]
    exact ⟨(gE h0 ht.1).1, (gE h ht.2.1).1, gAfter h' ht.2.2⟩
theorem gAfter : ∀ {i r : List T} {t : Its} {sh : Bool}, After L i r t → tIts L sh t → fIts false L sh t
  | _, _, _, _, .close, ht => by simp only [fIts]
  | _, _, _, _, .semi h, ht => gItems h ht
  | _, _, _, _, .comma h, ht => gItems h ht
theorem gBody : ∀ {i r : List T} {ps : List Param} {b : Block} {sh : Bool}, Body L i r ps b → tB L sh b → fB false L sh true b
  | _, _, _, _, _, .mk _ h, ht => gB h ht fun _ _ => rfl
theorem gB : ∀ {v : Option Nat} {i r : List T} {b : Block} {sh c : Bool}, B L v i r b → tB L sh b → (sh = false → Next Closes r → c = true) →
    fB false L sh c b
  | _, _, _, _, _, _, .nil _, ht, hc => by simp only [fB]
  | _, _, _, _, _, _, .semi _ h, ht, hc => by
    rw [tB] at ht; rw [fB]
    exact gB h ht hc
  | _, _, _, _, sh, c, .cons (s := s) (b := b) _ h h', ht, hc => by
    have ih := gS (sh := sh) (c := c) h
    have ih' := gB (sh := sh) (c := c) h'
    rw [tB] at ht; rw [fB]
    obtain ⟨h1, h2, h3, h4, h5⟩ := ht
    have hd : flag s = some true → b = .nil ∧ _ := fun hf => B_closes h' (S_flag h hf)
    refine ⟨ih h1 ?_, ih' h2 hc, ?_, ?_, h4, h5⟩
    · intro hs hn
      obtain ⟨-, rfl⟩ := B_closes h' hn
      exact hc hs hn
    · intro ho
      cases hl : leadB b with
      | false => rfl
      | true => exact absurd (B_lead h' hl) (S_open h h1 ho)
    · rintro d hf (hs | hs)
      · exact h3 d hf hs
      · subst hs; exact (hd hf).1
theorem gS : ∀ {v : Option Nat} {i r : List T} {s : St} {sh c : Bool}, S L v i r s → tS L sh s → (sh = false → Next Closes r → c = true) →
    fS false L sh c s
  | _, _, _, _, _, _, .do_ h, ht, hc => by rw [tS] at ht; rw [fS]; exact gB h ht fun _ _ => rfl
  | _, _, _, _, _, _, .if_ h, ht, hc => by rw [tS] at ht; rw [fS]; exact gI h ht hc
  | _, _, _, _, _, _, .while_ h h', ht, hc => by rw [tS] at ht; rw [fS]; exact ⟨(gE h ht.1).1, gB h' ht.2 fun _ _ => rfl⟩
  | _, _, _, _, sh, c, .whileShort (b := b) (d := d) h hd hdo hcl hb hl, ht, hc => by
    have ih := gE (sh := sh || !d) h
    have ih' := gB (sh := sh || !d) (c := d) hb
    rw [tS] at ht; rw [fS]
    obtain ⟨h1, h2, h3, h4, h5⟩ := ht
    refine ⟨⟨nofun, fun hs hd => hc hs (line_closes hb (hl.1 hd))⟩, h1, (ih h2).1, ih' h3 ?_, h4, ?_, h5⟩
    · intro hs _; cases d <;> simp_all
    · cases hlb : leadB b with
      | false => rfl
      | true => exact absurd (B_lead hb hlb) (no_lp hd (group_open h1))
  | _, _, _, _, _, _, .repeat_ h h' _, ht, hc => by rw [tS] at ht; rw [fS]; exact ⟨gB h ht.1 fun _ _ => rfl, (gE h' ht.2).1⟩
  | _, _, _, _, _, _, .fornum h h' h'', ht, hc => by
    rw [tS] at ht; rw [fS]
    exact ⟨(gE h ht.1).1, (gE h' ht.2.1).1, by simp only [fEs], .inl rfl, gB h'' ht.2.2.2 fun _ _ => rfl⟩
  | _, _, _, _, _, _, .forstep h h' h0 h'', ht, hc => by
    rw [tS, tEs] at ht; rw [fS, fEs, fEs]
    exact ⟨(gE h ht.1).1, (gE h' ht.2.1).1, ⟨(gE h0 ht.2.2.1.1).1, trivial⟩, .inr ⟨_, rfl⟩, gB h'' ht.2.2.2 fun _ _ => rfl⟩
  | _, _, _, _, _, _, .forin h h' h'', ht, hc => by
    rw [tS] at ht; rw [fS]
    have ⟨h1, h2⟩ := gEs h' ht.1
    exact ⟨Names_ne h, h2, h1, gB h'' ht.2.1 fun _ _ => rfl⟩
  | _, _, _, _, _, _, .break_, ht, hc => by simp only [fS]
  | _, _, _, _, _, _, .returnNone _, ht, hc => by simp only [fS, fEs]
  | _, _, _, _, _, _, .return_ _ h _, ht, hc => by rw [tS] at ht; rw [fS]; exact (gEs h ht).1
  | _, _, _, _, _, _, .local_ h _, ht, hc => by rw [fS, fEs]; exact ⟨(Locals_ok h).1, (Locals_ok h).2, trivial⟩
  | _, _, _, _, _, _, .localAssign h h' _, ht, hc => by rw [tS] at ht; rw [fS]; exact ⟨(Locals_ok h).1, (Locals_ok h).2, (gEs h' ht).1⟩
  | _, _, _, _, _, _, .localfn h, ht, hc => by rw [tS] at ht; rw [fS]; exact gBody h ht
  | _, _, _, _, _, _, .goto_, ht, hc => by simp only [fS]
  | _, _, _, _, _, _, .label, ht, hc => by simp only [fS]
  | _, _, _, _, _, _, .func _ h, ht, hc => by rw [tS] at ht; rw [fS]; exact gBody h ht
  | _, _, _, _, _, _, .assign _ h h' _, ht, hc => by
    rw [tS] at ht; rw [fS]
    have ⟨h1, h2⟩ := gEs h ht.2.1
    have ⟨h3, h4⟩ := gEs h' ht.2.2
    exact ⟨ht.1, h2, h4, h1, h3⟩
  | _, _, _, _, _, _, .opassign _ h h' _, ht, hc => by
    rw [tS] at ht; rw [fS]
    exact ⟨ht.1, (gE h ht.2.1).1, (gE h' ht.2.2).1⟩
  | _, _, _, _, _, _, .call h _ _, ht, hc => by rw [tS] at ht; rw [fS]; exact ⟨rfl, (gP h ht).1⟩
  | _, _, _, _, _, _, .method h _ _, ht, hc => by rw [tS] at ht; rw [fS]; exact ⟨rfl, (gP h ht).1⟩
  | _, _, _, _, _, _, .print h _, ht, hc => by
    rw [tS] at ht; rw [fS]
    have ⟨h1, h2⟩ := gEs h ht
    exact ⟨h2, h1⟩
theorem gI : ∀ {i r : List T} {s : If} {sh c : Bool}, I L i r s → tI L sh s → (sh = false → Next Closes r → c = true) → fI false L sh c s
  | _, _, _, sh, c, .long (b := b) (t := t) h hth h' h'', ht, hc => by
    have ih := gE (sh := sh) h
    have ih' := gB (sh := sh) (c := true) h'
    have ih'' := gTl (sh := sh) h''
    rw [tI] at ht; rw [fI]
    obtain ⟨h1, h2, h3, h4⟩ := ht
    refine ⟨(ih h1).1, ih' h2 (fun _ _ => rfl), ih'' h3, fun he => ?_⟩
    cases sh with
    | true => exact h4 rfl he
    | false =>
      cases hd : dangleB false b with
      | false => rfl
      | true =>
        have := B_dangle h' hd
        cases h'' with
        | else_ => exact absurd ⟨_, _, rfl, rfl⟩ this
        | _ => simp [isElse] at he
  | _, _, _, sh, c, .short (b := b) (d := d) h hd hth hcl hb he hl, ht, hc => by
    have ih := gE (sh := sh || !d) h
    have ih' := gB (sh := sh || !d) (c := d) hb
    rw [tI] at ht; rw [fI]
    obtain ⟨h1, h2, h3, h4, h5⟩ := ht
    refine ⟨⟨nofun, fun hs hd => hc hs (line_closes hb (hl.1 hd))⟩, h1, (ih h2).1, ih' h3 ?_, h4, ?_, h5⟩
    · intro hs _; cases d <;> simp_all
    · cases hlb : leadB b with
      | false => rfl
      | true => exact absurd (B_lead hb hlb) (no_lp hd (group_open h1))
  | _, _, _, sh, c, .shortElse (b := b) (d := d) h hd hth hcl hb hb' hl, ht, hc => by
    have ih := gE (sh := sh || !d) h
    have ih' := gB (sh := sh || !d) (c := true) hb
    have ih'' := gB (sh := sh || !d) (c := d) hb'
    rw [tI] at ht; rw [fI]
    obtain ⟨h1, h2, h3, h3', h4, h5, h6⟩ := ht
    refine ⟨⟨nofun, fun hs hd => hc hs (line_closes hb' (hl.1 hd))⟩, h1, (ih h2).1, ih' h3 (fun _ _ => rfl), ih'' h3' ?_, h4, ?_, h5, ?_⟩
    · intro hs _; cases d <;> simp_all
    · cases hlb : leadB b with
      | false => rfl
      | true => exact absurd (B_lead hb hlb) (no_lp hd (group_open h1))
    · cases hs : (sh || !d) with
      | true => rw [hs] at h6; exact h6 rfl
      | false =>
        cases hd : dangleB false b with
        | false => rfl
        | true => exact absurd ⟨_, _, rfl, rfl⟩ (B_dangle hb hd)
theorem gTl : ∀ {i r : List T} {t : Tail} {sh : Bool}, Tl L i r t → tT L sh t → fT false L sh t
  | _, _, _, _, .end_, ht => by simp only [fT]
  | _, _, _, _, .else_ h, ht => by rw [tT] at ht; rw [fT]; exact gB h ht fun _ _ => rfl
  | _, _, _, _, .elseif_ h, ht => by rw [tT] at ht; rw [fT]; exact ⟨ht.1, gI h ht.2 fun _ _ => rfl⟩
end

/-- Tidy programs are fine. -/
theorem fine_of {i : List T} {b : Block} (h : Program L i b) (ht : Tidy.Tidy L b) : Fine false L b :=
  ⟨gB h ht.1 fun _ ⟨_, _, e, _⟩ => by (cases e), ht.2⟩

end Verif.Mini
