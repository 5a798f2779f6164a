import Verif.ParenLemmas
import Verif.Spec.Paren
/-! Lemmas about paren removal: what the parser returns is well-parenthesised, paren removal keeps it
so, and neither the bare tree nor the values change. -/
namespace Verif.Paren

/-- The operator that follows is not taken by the innermost open loop of `e`. -/
def RejHead (L : Lang) (e : Ex) (rest : List Tok) : Prop :=
  ∀ o r, rest = .op o :: r → isBin L o = true → rej e o = true

/-- The operator that follows is not taken at level `p`. -/
def LoopEnd (L : Lang) (p : Option Nat) (rest : List Tok) : Prop :=
  ∀ o r, rest = .op o :: r → isBin L o = true → accepts o p = false

theorem rejHead_of {L e rest} (h : ∀ o, rej e o = true) : RejHead L e rest :=
  fun o _ _ _ => h o

theorem fit_none {L} : ∀ {e : Ex} {p}, Fit L p e → Fit L none e
  | .bin o l r, p, h => by
    rw [Fit] at *
    exact ⟨h.1, rfl, fit_none h.2.2.1, h.2.2.2.1, h.2.2.2.2⟩
  | .un _ _, _, h | .var _, _, h | .cst _, _, h | .num _, _, h | .str _, _, h | .fn _, _, h
  | .vararg, _, h | .group _, _, h | .member _ _, _, h | .index _ _, _, h | .call _ _ _, _, h
  | .method _ _ _ _, _, h | .table _, _, h => by
    rw [Fit] at * <;> first | exact h | simp

/-- Everything that the parser returns is well-parenthesised. -/
theorem parse_sound (L : Lang) : ∀ n : Nat,
    (∀ toks e r, parseCore L n toks = some (e, r) → (∀ p, Fit L p e) ∧ RejHead L e r ∧
      (∀ t ts, toks = t :: ts → (t = .lc ∨ ∃ s, t = .str s) → bareArgs (.cons e .nil) = true)) ∧
    (∀ p toks e r, parseExpr L n p toks = some (e, r) → Fit L p e ∧ RejHead L e r ∧
      LoopEnd L p r) ∧
    (∀ p e toks e' r, parseLoop L n p e toks = some (e', r) → Fit L p e → RejHead L e toks →
      Fit L p e' ∧ RejHead L e' r ∧ LoopEnd L p r) ∧
    (∀ toks a r, parseArgs L n toks = some (a, r) → FitArgs L a) ∧
    (∀ toks a r, parseArgs1 L n toks = some (a, r) → FitArgs L a) ∧
    (∀ toks a r, parseItems L n toks = some (a, r) → FitItems L a) ∧
    (∀ toks a r, parseSep L n toks = some (a, r) → FitItems L a) := by
  intro n
  induction n with
  | zero => simp [parseCore, parseExpr, parseLoop, parseArgs, parseArgs1, parseItems, parseSep]
  | succ n ih =>
    obtain ⟨hcore, hexpr, hloop, hargs, hargs1, hitems, hsep⟩ := ih
    refine ⟨?_, ?_, ?_, ?_, ?_, ?_, ?_⟩
    · intro toks e r h
      cases toks with
      | nil => simp [parseCore] at h
      | cons t ts =>
        cases t with
        | lc =>
          simp only [parseCore] at h
          split at h
          · rename_i its r' hi
            simp only [Option.some.injEq, Prod.mk.injEq] at h
            obtain ⟨rfl, rfl⟩ := h
            exact ⟨fun p => by rw [Fit]; exact hitems _ _ _ hi, rejHead_of fun _ => rfl,
              fun _ _ _ _ => rfl⟩
          · simp at h
        | lp =>
          simp only [parseCore] at h
          split at h
          · rename_i e' r' hi
            simp only [Option.some.injEq, Prod.mk.injEq] at h
            obtain ⟨rfl, rfl⟩ := h
            refine ⟨fun p => by rw [Fit]; exact (hexpr _ _ _ _ hi).1, rejHead_of fun _ => rfl, ?_⟩
            intro t ts h; cases h; rintro (h | ⟨s, h⟩) <;> cases h
          · simp at h
        | op o =>
          simp only [parseCore] at h
          split at h
          · rename_i ho
            split at h
            · rename_i e' r' hi
              simp only [Option.some.injEq, Prod.mk.injEq] at h
              obtain ⟨rfl, rfl⟩ := h
              have := hexpr _ _ _ _ hi
              refine ⟨fun p => by rw [Fit]; exact ⟨ho, this.1⟩, ?_, ?_⟩
              · intro o r hr hb
                simp [rej, this.2.2 o r hr hb]
              · intro t ts h; cases h; rintro (h | ⟨s, h⟩) <;> cases h
            · simp at h
          · simp at h
        | str s =>
          simp only [parseCore, Option.some.injEq, Prod.mk.injEq] at h
          obtain ⟨rfl, rfl⟩ := h
          exact ⟨fun p => by simp [Fit], rejHead_of fun _ => rfl, fun _ _ _ _ => rfl⟩
        | cst _ | num _ | fn _ | dots | id _ =>
          simp only [parseCore, Option.some.injEq, Prod.mk.injEq] at h
          obtain ⟨rfl, rfl⟩ := h
          refine ⟨fun p => by simp [Fit], rejHead_of fun _ => rfl, ?_⟩
          intro t ts h; cases h; rintro (h | ⟨s, h⟩) <;> cases h
        | _ => simp [parseCore] at h
    · intro p toks e r h
      rw [parseExpr] at h
      split at h
      · rename_i e' r' hi
        have := hcore _ _ _ hi
        exact hloop _ _ _ _ _ h (this.1 p) this.2.1
      · simp at h
    · intro p e toks e' r h hf hr
      cases toks with
      | nil =>
        simp only [parseLoop, Option.some.injEq, Prod.mk.injEq] at h
        obtain ⟨rfl, rfl⟩ := h
        exact ⟨hf, hr, fun o r h => by cases h⟩
      | cons t ts =>
        have stop : (∀ o, t ≠ .op o) → some (e, t :: ts) = some (e', r) →
            Fit L p e' ∧ RejHead L e' r ∧ LoopEnd L p r := by
          intro ht h
          simp only [Option.some.injEq, Prod.mk.injEq] at h
          obtain ⟨rfl, rfl⟩ := h
          exact ⟨hf, hr, fun o r h => by cases h; exact absurd rfl (ht o)⟩
        cases t with
        | dot =>
          simp only [parseLoop] at h
          split at h
          · rename_i hp
            split at h
            · refine hloop _ _ _ _ _ h ?_ (rejHead_of fun _ => rfl)
              rw [Fit]; exact ⟨hp, (fit_none hf)⟩
            · simp at h
          · exact stop (by simp) h
        | lb =>
          simp only [parseLoop] at h
          split at h
          · rename_i hp
            split at h
            · rename_i k r' hk
              refine hloop _ _ _ _ _ h ?_ (rejHead_of fun _ => rfl)
              rw [Fit]; exact ⟨hp, (fit_none hf), (hexpr _ _ _ _ hk).1⟩
            · simp at h
          · exact stop (by simp) h
        | lp =>
          simp only [parseLoop] at h
          split at h
          · rename_i hp
            split at h
            · rename_i k r' hk
              refine hloop _ _ _ _ _ h ?_ (rejHead_of fun _ => rfl)
              rw [Fit]; exact ⟨hp, (fit_none hf), hargs _ _ _ hk, by simp⟩
            · simp at h
          · exact stop (by simp) h
        | lc =>
          simp only [parseLoop] at h
          split at h
          · rename_i hp
            split at h
            · rename_i k r' hk
              have hc := hcore _ _ _ hk
              refine hloop _ _ _ _ _ h ?_ (rejHead_of fun _ => rfl)
              rw [Fit]
              exact ⟨hp, (fit_none hf), by simp [FitArgs, hc.1],
                fun _ => hc.2.2 _ _ rfl (.inl rfl)⟩
            · simp at h
          · exact stop (by simp) h
        | str s =>
          simp only [parseLoop] at h
          split at h
          · rename_i hp
            split at h
            · rename_i k r' hk
              have hc := hcore _ _ _ hk
              refine hloop _ _ _ _ _ h ?_ (rejHead_of fun _ => rfl)
              rw [Fit]
              exact ⟨hp, (fit_none hf), by simp [FitArgs, hc.1],
                fun _ => hc.2.2 _ _ rfl (.inr ⟨_, rfl⟩)⟩
            · simp at h
          · exact stop (by simp) h
        | colon =>
          simp only [parseLoop] at h
          split at h
          · rename_i hp
            split at h
            · split at h
              · rename_i k r' hk
                refine hloop _ _ _ _ _ h ?_ (rejHead_of fun _ => rfl)
                rw [Fit]; exact ⟨hp, (fit_none hf), hargs _ _ _ hk, by simp⟩
              · simp at h
            · split at h
              · rename_i k r' hk
                have hc := hcore _ _ _ hk
                refine hloop _ _ _ _ _ h ?_ (rejHead_of fun _ => rfl)
                rw [Fit]
                exact ⟨hp, (fit_none hf), by simp [FitArgs, hc.1],
                  fun _ => hc.2.2 _ _ rfl (.inl rfl)⟩
              · simp at h
            · split at h
              · rename_i k r' hk
                have hc := hcore _ _ _ hk
                refine hloop _ _ _ _ _ h ?_ (rejHead_of fun _ => rfl)
                rw [Fit]
                exact ⟨hp, (fit_none hf), by simp [FitArgs, hc.1],
                  fun _ => hc.2.2 _ _ rfl (.inr ⟨_, rfl⟩)⟩
              · simp at h
            · simp at h
          · exact stop (by simp) h
        | op o =>
          simp only [parseLoop] at h
          split at h
          · rename_i hb
            simp only [Bool.and_eq_true] at hb
            split at h
            · rename_i k r' hk
              have hc := hexpr _ _ _ _ hk
              refine hloop _ _ _ _ _ h ?_ ?_
              · rw [Fit]
                exact ⟨hb.1, hb.2, hf, hr o ts rfl hb.1, hc.1⟩
              · intro o' r'' hr'' hb''
                simp [rej, hc.2.2 o' r'' hr'' hb'']
            · simp at h
          · rename_i hb
            simp only [Option.some.injEq, Prod.mk.injEq] at h
            obtain ⟨rfl, rfl⟩ := h
            refine ⟨hf, hr, ?_⟩
            intro o' r' h' hb'
            cases h'
            simpa [hb'] using hb
        | _ =>
          simp only [parseLoop] at h
          exact stop (by simp) h
    · intro toks a r h
      rw [parseArgs.eq_def] at h
      simp only at h
      split at h
      · simp only [Option.some.injEq, Prod.mk.injEq] at h
        obtain ⟨rfl, rfl⟩ := h
        trivial
      · exact hargs1 _ _ _ h
    · intro toks a r h
      rw [parseArgs1] at h
      split at h
      · rename_i hi
        simp only [Option.some.injEq, Prod.mk.injEq] at h
        obtain ⟨rfl, rfl⟩ := h
        exact ⟨(hexpr _ _ _ _ hi).1, trivial⟩
      · rename_i hi
        split at h
        · rename_i hi2
          simp only [Option.some.injEq, Prod.mk.injEq] at h
          obtain ⟨rfl, rfl⟩ := h
          exact ⟨(hexpr _ _ _ _ hi).1, hargs1 _ _ _ hi2⟩
        · simp at h
      · simp at h
    · intro toks a r h
      rw [parseItems.eq_def] at h
      simp only at h
      split at h
      · simp only [Option.some.injEq, Prod.mk.injEq] at h
        obtain ⟨rfl, rfl⟩ := h
        trivial
      · split at h
        · rename_i hk
          split at h
          · rename_i he
            split at h
            · rename_i hs
              simp only [Option.some.injEq, Prod.mk.injEq] at h
              obtain ⟨rfl, rfl⟩ := h
              exact ⟨(hexpr _ _ _ _ hk).1, (hexpr _ _ _ _ he).1, hsep _ _ _ hs⟩
            · simp at h
          · simp at h
        · simp at h
      · split at h
        · rename_i he
          split at h
          · rename_i hs
            simp only [Option.some.injEq, Prod.mk.injEq] at h
            obtain ⟨rfl, rfl⟩ := h
            exact ⟨(hexpr _ _ _ _ he).1, hsep _ _ _ hs⟩
          · simp at h
        · simp at h
      · simp at h
      · split at h
        · rename_i he
          split at h
          · rename_i hs
            simp only [Option.some.injEq, Prod.mk.injEq] at h
            obtain ⟨rfl, rfl⟩ := h
            exact ⟨(hexpr _ _ _ _ he).1, hsep _ _ _ hs⟩
          · simp at h
        · simp at h
    · intro toks a r h
      rw [parseSep.eq_def] at h
      simp only at h
      split at h
      · simp only [Option.some.injEq, Prod.mk.injEq] at h
        obtain ⟨rfl, rfl⟩ := h
        trivial
      · exact hitems _ _ _ h
      · exact hitems _ _ _ h
      · simp at h

/-- What the place of a node in its parent demands of it. -/
def CtxOk (L : Lang) (c : Ctx) (p : Option Nat) (e : Ex) : Prop :=
  match c with
  | .unArg => p = some unPrec
  | .left o => isBin L o = true ∧ accepts o p = true ∧ rej e o = true
  | .right o => isBin L o = true ∧ p = some (prec o)
  | .base => isPrefix e = true
  | _ => p = none

theorem fit_raise {L p} : ∀ {e : Ex}, Fit L none e → (∀ o l r, e = .bin o l r → accepts o p = true) →
    Fit L p e
  | .bin o l r, h, ha => by
    rw [Fit] at *
    have ho := ha o l r rfl
    refine ⟨h.1, ho, fit_raise h.2.2.1 ?_, h.2.2.2⟩
    rintro o' l' r' rfl
    have hr := h.2.2.2.1
    simp only [rej, Bool.not_eq_true'] at hr
    cases p with
    | none => rfl
    | some q =>
      unfold accepts at *
      simp only at *
      split at hr <;> split at ho <;> split <;> simp_all <;> omega
  | .un _ _, h, _ | .var _, h, _ | .cst _, h, _ | .num _, h, _ | .str _, h, _ | .fn _, h, _
  | .vararg, h, _ | .group _, h, _ | .member _ _, h, _ | .index _ _, h, _ | .call _ _ _, h, _
  | .method _ _ _ _, h, _ | .table _, h, _ => by
    rw [Fit] at * <;> first | exact h | simp

theorem prec_ne_un (o : Op) : prec o ≠ unPrec := by cases o <;> simp [prec, unPrec]

theorem right_of_prec {o o' : Op} (h : prec o' = prec o) (hr : rightOp o = true) :
    rightOp o' = true := by
  revert h hr
  cases o <;> simp [rightOp] <;> cases o' <;> simp [prec]

/-- Where a group is removed, its contents fit as they are. -/
theorem removes_ok {L f c p e} (h : removes f c e = true) (hc : CtxOk L c p (.group e))
    (hf : Fit L none e) : CtxOk L c p e ∧ Fit L p e := by
  cases c with
  | unArg =>
    simp only [CtxOk] at hc ⊢
    subst hc
    refine ⟨rfl, fit_raise hf ?_⟩
    rintro o l r rfl
    simp only [removes, ctxPrec, removeOperand, exPrec] at h
    have := prec_ne_un o
    simp only [accepts]
    split <;> simp_all <;> omega
  | left o =>
    simp only [CtxOk] at hc ⊢
    obtain ⟨hb, ha, _⟩ := hc
    simp only [removes, ctxPrec, removeOperand] at h
    have h11 := prec_ne_un o
    constructor
    · refine ⟨hb, ha, ?_⟩
      cases e with
      | bin o' l r =>
        simp only [exPrec, ctxRightAssoc, ctxIsRight] at h
        simp only [rej, accepts]
        cases hr : rightOp o <;> simp_all <;> omega
      | un o' l =>
        simp only [exPrec, ctxRightAssoc, ctxIsRight] at h
        simp only [rej, accepts]
        cases hr : rightOp o <;> simp_all <;> omega
      | _ => rfl
    · refine fit_raise hf ?_
      rintro o' l r rfl
      simp only [exPrec, ctxRightAssoc, ctxIsRight] at h
      cases p with
      | none => rfl
      | some q =>
        simp only [accepts] at ha ⊢
        cases hr : rightOp o <;> cases hr' : rightOp o' <;> simp_all <;> omega
  | right o =>
    simp only [CtxOk] at hc ⊢
    obtain ⟨hb, rfl⟩ := hc
    refine ⟨⟨hb, rfl⟩, fit_raise hf ?_⟩
    rintro o' l r rfl
    simp only [removes, ctxPrec, removeOperand, exPrec, ctxRightAssoc, ctxIsRight] at h
    have h11 := prec_ne_un o
    have h2 := @right_of_prec o o'
    simp only [accepts]
    cases hr : rightOp o <;> cases hr' : rightOp o' <;> simp_all <;> omega
  | base =>
    simp only [removes, ctxPrec] at h
    exact ⟨h, fit_prefix h hf⟩
  | single =>
    simp only [CtxOk] at hc ⊢
    subst hc; exact ⟨rfl, hf⟩
  | last =>
    simp only [CtxOk] at hc ⊢
    subst hc; exact ⟨rfl, hf⟩
  | keep => simp [removes, ctxPrec] at h

theorem bareArgs_mn (f) (args : Exs) : bareArgs (mnArgs f args) = true ∨ bareArgs args = false := by
  rcases args with _ | ⟨e, _ | ⟨e', es⟩⟩
  · simp [bareArgs]
  · cases e <;> simp [bareArgs, mnArgs, mn]
  · right; cases e <;> simp [bareArgs]

mutual
theorem mn_fit (L : Lang) (f : Bool) : ∀ (e : Ex) (c : Ctx) (p : Option Nat), CtxOk L c p e →
    Fit L p e → Fit L p (mn f c e) ∧ CtxOk L c p (mn f c e)
  | .group e, c, p, hc, hf => by
    rw [mn]
    rw [Fit] at hf
    by_cases h : removes f c e = true
    · rw [if_pos h]
      obtain ⟨h1, h2⟩ := removes_ok h hc hf
      exact mn_fit L f e c p h1 h2
    · rw [if_neg h, Fit]
      refine ⟨(mn_fit L f e .single none rfl hf).1, ?_⟩
      cases c <;> simp_all [CtxOk, rej, isPrefix]
  | .un o e, c, p, hc, hf => by
    rw [Fit] at hf
    rw [mn, Fit]
    refine ⟨⟨hf.1, (mn_fit L f e .unArg _ rfl hf.2).1⟩, ?_⟩
    cases c <;> simp_all [CtxOk, rej, isPrefix]
  | .bin o l r, c, p, hc, hf => by
    rw [Fit] at hf
    obtain ⟨hb, ha, hl, hr, hfr⟩ := hf
    rw [mn, Fit]
    obtain ⟨hl1, hl2⟩ := mn_fit L f l (.left o) p ⟨hb, ha, hr⟩ hl
    have hr1 := mn_fit L f r (.right o) _ ⟨hb, rfl⟩ hfr
    refine ⟨⟨hb, ha, hl1, hl2.2.2, hr1.1⟩, ?_⟩
    cases c <;> simp_all [CtxOk, rej, isPrefix]
  | .member b n, c, p, hc, hf => by
    rw [Fit] at hf
    rw [mn, Fit]
    have hb := mn_fit L f b .base none hf.1 hf.2
    refine ⟨⟨hb.2, hb.1⟩, ?_⟩
    cases c <;> simp_all [CtxOk, rej, isPrefix]
  | .index b k, c, p, hc, hf => by
    rw [Fit] at hf
    rw [mn, Fit]
    have hb := mn_fit L f b .base none hf.1 hf.2.1
    have hk := mn_fit L f k .single none rfl hf.2.2
    refine ⟨⟨hb.2, hb.1, hk.1⟩, ?_⟩
    cases c <;> simp_all [CtxOk, rej, isPrefix]
  | .call b sh args, c, p, hc, hf => by
    rw [Fit] at hf
    rw [mn, Fit]
    have hb := mn_fit L f b .base none hf.1 hf.2.1
    have ha := mnArgs_fit L f args hf.2.2.1
    refine ⟨⟨hb.2, hb.1, ha, fun h => ?_⟩, ?_⟩
    · rcases bareArgs_mn f args with h' | h'
      · exact h'
      · simp_all
    · cases c <;> simp_all [CtxOk, rej, isPrefix]
  | .method b n sh args, c, p, hc, hf => by
    rw [Fit] at hf
    rw [mn, Fit]
    have hb := mn_fit L f b .base none hf.1 hf.2.1
    have ha := mnArgs_fit L f args hf.2.2.1
    refine ⟨⟨hb.2, hb.1, ha, fun h => ?_⟩, ?_⟩
    · rcases bareArgs_mn f args with h' | h'
      · exact h'
      · have := hf.2.2.2 h
        simp_all
    · cases c <;> simp_all [CtxOk, rej, isPrefix]
  | .table its, c, p, hc, hf => by
    rw [Fit] at hf
    rw [mn, Fit]
    refine ⟨mnItems_fit L f its hf, ?_⟩
    cases c <;> simp_all [CtxOk, rej, isPrefix]
  | .var _, _, _, hc, _ | .cst _, _, _, hc, _ | .num _, _, _, hc, _ | .str _, _, _, hc, _
  | .fn _, _, _, hc, _ | .vararg, _, _, hc, _ => by
    simp only [mn]
    exact ⟨by simp [Fit], hc⟩
theorem mnArgs_fit (L : Lang) (f : Bool) : ∀ (args : Exs), FitArgs L args →
    FitArgs L (mnArgs f args)
  | .nil, _ => by simp [mnArgs, FitArgs]
  | .cons e .nil, h => by
    rw [FitArgs] at h
    simp only [mnArgs, FitArgs]
    exact ⟨(mn_fit L f e .last none rfl h.1).1, trivial⟩
  | .cons e (.cons e' es), h => by
    rw [FitArgs] at h
    have := mnArgs_fit L f (.cons e' es) h.2
    rw [mnArgs, FitArgs]
    · exact ⟨(mn_fit L f e .single none rfl h.1).1, this⟩
    · simp
theorem mnItems_fit (L : Lang) (f : Bool) : ∀ (its : Its), FitItems L its →
    FitItems L (mnItems f its)
  | .nil, _ => by simp [mnItems, FitItems]
  | .pos e its, h => by
    rw [FitItems] at h
    have h2 := mnItems_fit L f its h.2
    cases its with
    | nil =>
      simp only [mnItems, FitItems]
      exact ⟨(mn_fit L f e .last none rfl h.1).1, trivial⟩
    | _ =>
      rw [mnItems, FitItems]
      · exact ⟨(mn_fit L f e .single none rfl h.1).1, h2⟩
      · simp
  | .named n e its, h => by
    rw [FitItems] at h
    rw [mnItems, FitItems]
    exact ⟨(mn_fit L f e .single none rfl h.1).1, mnItems_fit L f its h.2⟩
  | .keyed k e its, h => by
    rw [FitItems] at h
    rw [mnItems, FitItems]
    exact ⟨(mn_fit L f k .single none rfl h.1).1, (mn_fit L f e .single none rfl h.2.1).1,
      mnItems_fit L f its h.2.2⟩
end

mutual
theorem mn_bare (f : Bool) : ∀ (e : Ex) (c : Ctx), bare (mn f c e) = bare e
  | .group e, c => by
    rw [mn]
    split
    · rw [mn_bare f e c, bare]
    · rw [bare, bare, mn_bare f e]
  | .un o e, c => by rw [mn, bare, bare, mn_bare f e]
  | .bin o l r, c => by rw [mn, bare, bare, mn_bare f l, mn_bare f r]
  | .member b n, c => by rw [mn, bare, bare, mn_bare f b]
  | .index b k, c => by rw [mn, bare, bare, mn_bare f b, mn_bare f k]
  | .call b sh args, c => by rw [mn, bare, bare, mn_bare f b, mnArgs_bare f args]
  | .method b n sh args, c => by rw [mn, bare, bare, mn_bare f b, mnArgs_bare f args]
  | .table its, c => by rw [mn, bare, bare, mnItems_bare f its]
  | .var _, _ | .cst _, _ | .num _, _ | .str _, _ | .fn _, _ | .vararg, _ => by simp [mn]
theorem mnArgs_bare (f : Bool) : ∀ (args : Exs), bareAll (mnArgs f args) = bareAll args
  | .nil => by simp [mnArgs]
  | .cons e .nil => by simp only [mnArgs, bareAll, mn_bare f e]
  | .cons e (.cons e' es) => by
    have := mnArgs_bare f (.cons e' es)
    rw [mnArgs, bareAll, bareAll, mn_bare f e, this]
    simp
theorem mnItems_bare (f : Bool) : ∀ (its : Its), bareItems (mnItems f its) = bareItems its
  | .nil => by simp [mnItems]
  | .pos e its => by
    have h2 := mnItems_bare f its
    cases its with
    | nil => simp only [mnItems, bareItems, mn_bare f e]
    | _ =>
      rw [mnItems, bareItems, bareItems, mn_bare f e, h2]
      simp
  | .named n e its => by rw [mnItems, bareItems, bareItems, mn_bare f e, mnItems_bare f its]
  | .keyed k e its => by
    rw [mnItems, bareItems, bareItems, mn_bare f k, mn_bare f e, mnItems_bare f its]
end

set_option linter.unusedSectionVars false
section
variable {M : Type → Type} [Monad M] [LawfulMonad M] {V : Type}

theorem first_one (I : Interp M V) (m : M V) : first I (one m) = m := by
  simp [first, one]

theorem first_pure (I : Interp M V) (v : V) : first I (pure [v]) = pure v := by
  simp [first]

theorem one_pure (v : V) : one (pure v : M V) = pure [v] := by simp [one]

/-- An expression that is not a call or `...` has one value. -/
theorem den_one (I : Interp M V) {e : Ex} (h : isVararg e = false) :
    one (first I (den I e)) = den I e := by
  cases e <;> simp_all [isVararg, den, first_one, first_pure, one_pure]

/-- Places where all the values of an expression count. -/
def multi : Ctx → Bool
  | .last | .keep => true
  | _ => false

mutual
theorem mn_den (I : Interp M V) (f : Bool) : ∀ (e : Ex) (c : Ctx),
    (multi c = true → den I (mn f c e) = den I e) ∧ first I (den I (mn f c e)) = first I (den I e)
  | .group e, c => by
    rw [mn]
    split
    · rename_i h
      obtain ⟨h1, h2⟩ := mn_den I f e c
      refine ⟨fun hm => ?_, by rw [h2, den, first_one]⟩
      rw [h1 hm, den]
      cases c with
      | last =>
        simp only [removes, ctxPrec] at h
        exact (den_one I (by simpa using h)).symm
      | keep => simp [removes, ctxPrec] at h
      | _ => simp [multi] at hm
    · have : den I (.group (mn f .single e)) = den I (.group e) := by
        rw [den, den, (mn_den I f e .single).2]
      exact ⟨fun _ => this, by rw [this]⟩
  | .un o e, c => by
    have : den I (mn f c (.un o e)) = den I (.un o e) := by
      rw [mn, den, den, (mn_den I f e _).2]
    exact ⟨fun _ => this, by rw [this]⟩
  | .bin o l r, c => by
    have : den I (mn f c (.bin o l r)) = den I (.bin o l r) := by
      rw [mn, den, den, (mn_den I f l _).2, (mn_den I f r _).2]
    exact ⟨fun _ => this, by rw [this]⟩
  | .member b n, c => by
    have : den I (mn f c (.member b n)) = den I (.member b n) := by
      rw [mn, den, den, (mn_den I f b _).2]
    exact ⟨fun _ => this, by rw [this]⟩
  | .index b k, c => by
    have : den I (mn f c (.index b k)) = den I (.index b k) := by
      rw [mn, den, den, (mn_den I f b _).2, (mn_den I f k _).2]
    exact ⟨fun _ => this, by rw [this]⟩
  | .call b sh args, c => by
    have : den I (mn f c (.call b sh args)) = den I (.call b sh args) := by
      rw [mn, den, den, (mn_den I f b _).2, mnArgs_den I f args]
    exact ⟨fun _ => this, by rw [this]⟩
  | .method b n sh args, c => by
    have : den I (mn f c (.method b n sh args)) = den I (.method b n sh args) := by
      rw [mn, den, den, (mn_den I f b _).2, mnArgs_den I f args]
    exact ⟨fun _ => this, by rw [this]⟩
  | .table its, c => by
    have : den I (mn f c (.table its)) = den I (.table its) := by
      rw [mn, den, den, mnItems_den I f its]
    exact ⟨fun _ => this, by rw [this]⟩
  | .var _, _ | .cst _, _ | .num _, _ | .str _, _ | .fn _, _ | .vararg, _ => by simp [mn]
theorem mnArgs_den (I : Interp M V) (f : Bool) : ∀ (args : Exs),
    denArgs I (mnArgs f args) = denArgs I args
  | .nil => by simp [mnArgs]
  | .cons e .nil => by simp only [mnArgs, denArgs, (mn_den I f e .last).1 rfl]
  | .cons e (.cons e' es) => by
    have h := mnArgs_den I f (.cons e' es)
    have hne : mnArgs f (.cons e' es) ≠ .nil := by
      cases es <;> simp [mnArgs]
    rw [mnArgs, denArgs, denArgs, (mn_den I f e .single).2, h]
    · simp
    · exact hne
    · simp
theorem mnItems_den (I : Interp M V) (f : Bool) : ∀ (its : Its),
    denItems I (mnItems f its) = denItems I its
  | .nil => by simp [mnItems]
  | .pos e its => by
    have h := mnItems_den I f its
    have hne : its ≠ .nil → mnItems f its ≠ .nil := by
      intro h
      cases its with
      | pos e its => cases its <;> simp [mnItems]
      | _ => simp_all [mnItems]
    cases its with
    | nil => simp only [mnItems, denItems, (mn_den I f e .last).1 rfl]
    | _ =>
      rw [mnItems, denItems, denItems, (mn_den I f e .single).2, h]
      · simp
      · exact hne (by simp)
      · simp
  | .named n e its => by
    rw [mnItems, denItems, denItems, (mn_den I f e .single).2, mnItems_den I f its]
  | .keyed k e its => by
    rw [mnItems, denItems, denItems, (mn_den I f k .single).2, (mn_den I f e .single).2,
      mnItems_den I f its]
end

theorem prec_canon (L v37 o) : prec (canonOp L v37 o) = prec o := by
  cases L <;> cases v37 <;> cases o <;> rfl

theorem right_canon (L v37 o) : rightOp (canonOp L v37 o) = rightOp o := by
  cases L <;> cases v37 <;> cases o <;> rfl

theorem isBin_canon {L v37 o} (h : isBin L o = true) : isBin L (canonOp L v37 o) = true := by
  revert h
  cases L <;> cases v37 <;> cases o <;> simp [canonOp, isBin]

theorem accepts_canon (L v37 o p) : accepts (canonOp L v37 o) p = accepts o p := by
  unfold accepts
  rw [prec_canon, right_canon]

theorem rej_canon (L v37 o) (e : Ex) : rej e (canonOp L v37 o) = rej e o := by
  cases e <;> simp [rej, accepts_canon]

theorem bareArgs_fx (L v37 fmt) {args : Exs} (h : bareArgs args = true) :
    bareArgs (fxArgs L v37 fmt args) = true := by
  rcases args with _ | ⟨e, _ | ⟨e', es⟩⟩
  · simp [bareArgs] at h
  · cases e <;> simp [bareArgs, fxArgs, fx] at *
  · cases e <;> simp [bareArgs] at h

mutual
theorem fx_fit {L : Lang} {I : Interp M V} {fmt} (v37 : Bool) (hk : FmtOk L I fmt) :
    ∀ (e : Ex) (c : Ctx) (p : Option Nat),
    CtxOk L c p e → Fit L p e → Fit L p (fx L v37 fmt c e) ∧ CtxOk L c p (fx L v37 fmt c e)
  | .num v, c, p, hc, hf => by
    rw [fx]
    cases h : fmt (canUnary c) v with
    | plain w => exact ⟨by simp [NumOut.ex, Fit], hc⟩
    | signed o w =>
      obtain ⟨h1, h2, _⟩ := hk.signed _ _ _ _ h
      refine ⟨by simp [NumOut.ex, Fit, h2], ?_⟩
      cases c with
      | left o' =>
        simp only [CtxOk] at hc ⊢
        refine ⟨hc.1, hc.2.1, ?_⟩
        simp only [canUnary, ctxIsRight, ctxPrec] at h1
        simp only [NumOut.ex, rej, accepts]
        cases rightOp o' <;> simp_all <;> omega
      | unArg => simp [canUnary, ctxIsRight, ctxPrec] at h1
      | base => simp [CtxOk, isPrefix] at hc
      | _ => exact hc
    | parens o w =>
      obtain ⟨h2, _⟩ := hk.parens _ _ _ _ h
      refine ⟨by simp [NumOut.ex, Fit, h2], ?_⟩
      cases c <;> simp_all [CtxOk, rej, NumOut.ex, isPrefix]
  | .group e, c, p, hc, hf => by
    rw [Fit] at hf
    rw [fx, Fit]
    refine ⟨(fx_fit v37 hk e .single none rfl hf).1, ?_⟩
    cases c <;> simp_all [CtxOk, rej, isPrefix]
  | .un o e, c, p, hc, hf => by
    rw [Fit] at hf
    rw [fx, Fit]
    refine ⟨⟨hf.1, (fx_fit v37 hk e .unArg _ rfl hf.2).1⟩, ?_⟩
    cases c <;> simp_all [CtxOk, rej, isPrefix]
  | .bin o l r, c, p, hc, hf => by
    rw [Fit] at hf
    obtain ⟨hb, ha, hl, hr, hfr⟩ := hf
    rw [fx, Fit, accepts_canon, prec_canon, rej_canon]
    obtain ⟨hl1, hl2⟩ := fx_fit v37 hk l (.left o) p ⟨hb, ha, hr⟩ hl
    have hr1 := fx_fit v37 hk r (.right o) _ ⟨hb, rfl⟩ hfr
    refine ⟨⟨isBin_canon hb, ha, hl1, hl2.2.2, hr1.1⟩, ?_⟩
    cases c <;> simp_all [CtxOk, rej, isPrefix, prec_canon]
  | .member b n, c, p, hc, hf => by
    rw [Fit] at hf
    rw [fx, Fit]
    have hb := fx_fit v37 hk b .base none hf.1 hf.2
    refine ⟨⟨hb.2, hb.1⟩, ?_⟩
    cases c <;> simp_all [CtxOk, rej, isPrefix]
  | .index b k, c, p, hc, hf => by
    rw [Fit] at hf
    rw [fx, Fit]
    have hb := fx_fit v37 hk b .base none hf.1 hf.2.1
    have hk := fx_fit v37 hk k .single none rfl hf.2.2
    refine ⟨⟨hb.2, hb.1, hk.1⟩, ?_⟩
    cases c <;> simp_all [CtxOk, rej, isPrefix]
  | .call b sh args, c, p, hc, hf => by
    rw [Fit] at hf
    rw [fx, Fit]
    have hb := fx_fit v37 hk b .base none hf.1 hf.2.1
    have ha := fxArgs_fit v37 hk args hf.2.2.1
    refine ⟨⟨hb.2, hb.1, ha, fun h => bareArgs_fx L v37 fmt (hf.2.2.2 h)⟩, ?_⟩
    cases c <;> simp_all [CtxOk, rej, isPrefix]
  | .method b n sh args, c, p, hc, hf => by
    rw [Fit] at hf
    rw [fx, Fit]
    have hb := fx_fit v37 hk b .base none hf.1 hf.2.1
    have ha := fxArgs_fit v37 hk args hf.2.2.1
    refine ⟨⟨hb.2, hb.1, ha, fun h => bareArgs_fx L v37 fmt (hf.2.2.2 h)⟩, ?_⟩
    cases c <;> simp_all [CtxOk, rej, isPrefix]
  | .table its, c, p, hc, hf => by
    rw [Fit] at hf
    rw [fx, Fit]
    refine ⟨fxItems_fit v37 hk its hf, ?_⟩
    cases c <;> simp_all [CtxOk, rej, isPrefix]
  | .var _, _, _, hc, _ | .cst _, _, _, hc, _ | .str _, _, _, hc, _
  | .fn _, _, _, hc, _ | .vararg, _, _, hc, _ => by
    simp only [fx]
    exact ⟨by simp [Fit], hc⟩
theorem fxArgs_fit {L : Lang} {I : Interp M V} {fmt} (v37 : Bool) (hk : FmtOk L I fmt) :
    ∀ (args : Exs), FitArgs L args → FitArgs L (fxArgs L v37 fmt args)
  | .nil, _ => by simp [fxArgs, FitArgs]
  | .cons e es, h => by
    rw [FitArgs] at h
    rw [fxArgs, FitArgs]
    exact ⟨(fx_fit v37 hk e .single none rfl h.1).1, fxArgs_fit v37 hk es h.2⟩
theorem fxItems_fit {L : Lang} {I : Interp M V} {fmt} (v37 : Bool) (hk : FmtOk L I fmt) :
    ∀ (its : Its), FitItems L its → FitItems L (fxItems L v37 fmt its)
  | .nil, _ => by simp [fxItems, FitItems]
  | .pos e its, h => by
    rw [FitItems] at h
    rw [fxItems, FitItems]
    exact ⟨(fx_fit v37 hk e .single none rfl h.1).1, fxItems_fit v37 hk its h.2⟩
  | .named n e its, h => by
    rw [FitItems] at h
    rw [fxItems, FitItems]
    exact ⟨(fx_fit v37 hk e .single none rfl h.1).1, fxItems_fit v37 hk its h.2⟩
  | .keyed k e its, h => by
    rw [FitItems] at h
    rw [fxItems, FitItems]
    exact ⟨(fx_fit v37 hk k .single none rfl h.1).1, (fx_fit v37 hk e .single none rfl h.2.1).1,
      fxItems_fit v37 hk its h.2.2⟩
end

theorem OpsOk.canon {L : Lang} {I : Interp M V} {v37 : Bool} (h : OpsOk L v37 I) (o : Op) : I.bin (canonOp L v37 o) = I.bin o := by
  cases o <;> simp only [canonOp]
  · exact h.ne.symm
  · split
    · rename_i hv; exact (h.xor hv).symm
    · rfl
  · split
    · rename_i hl; exact (h.idiv (by simpa using hl)).symm
    · rfl

mutual
theorem fx_den {L : Lang} {I : Interp M V} {fmt} {v37 : Bool} (hk : FmtOk L I fmt)
    (ho : OpsOk L v37 I) : ∀ (e : Ex) (c : Ctx), den I (fx L v37 fmt c e) = den I e
  | .num v, c => by
    rw [fx]
    cases h : fmt (canUnary c) v with
    | plain w => simp [NumOut.ex, den, hk.plain _ _ _ h]
    | signed o w =>
      simp [NumOut.ex, den, first_pure, (hk.signed _ _ _ _ h).2.2, one_pure]
    | parens o w =>
      simp [NumOut.ex, den, first_pure, (hk.parens _ _ _ _ h).2, one_pure]
  | .group e, c => by rw [fx, den, den, fx_den hk ho e]
  | .un o e, c => by rw [fx, den, den, fx_den hk ho e]
  | .bin o l r, c => by rw [fx, den, den, fx_den hk ho l, fx_den hk ho r, ho.canon]
  | .member b n, c => by rw [fx, den, den, fx_den hk ho b]
  | .index b k, c => by rw [fx, den, den, fx_den hk ho b, fx_den hk ho k]
  | .call b sh args, c => by rw [fx, den, den, fx_den hk ho b, fxArgs_den hk ho args]
  | .method b n sh args, c => by rw [fx, den, den, fx_den hk ho b, fxArgs_den hk ho args]
  | .table its, c => by rw [fx, den, den, fxItems_den hk ho its]
  | .var _, _ | .cst _, _ | .str _, _ | .fn _, _ | .vararg, _ => by simp [fx]
theorem fxArgs_den {L : Lang} {I : Interp M V} {fmt} {v37 : Bool} (hk : FmtOk L I fmt)
    (ho : OpsOk L v37 I) : ∀ (args : Exs), denArgs I (fxArgs L v37 fmt args) = denArgs I args
  | .nil => by simp [fxArgs]
  | .cons e .nil => by simp only [fxArgs, denArgs, fx_den hk ho e]
  | .cons e (.cons e' es) => by
    have h := fxArgs_den hk ho (.cons e' es)
    rw [fxArgs, denArgs, denArgs, fx_den hk ho e, h]
    · simp
    · simp [fxArgs]
theorem fxItems_den {L : Lang} {I : Interp M V} {fmt} {v37 : Bool} (hk : FmtOk L I fmt)
    (ho : OpsOk L v37 I) : ∀ (its : Its), denItems I (fxItems L v37 fmt its) = denItems I its
  | .nil => by simp [fxItems]
  | .pos e its => by
    have h := fxItems_den hk ho its
    cases its with
    | nil => simp only [fxItems, denItems, fx_den hk ho e]
    | _ =>
      rw [fxItems, denItems, denItems, fx_den hk ho e, h]
      · simp
      · simp [fxItems]
  | .named n e its => by
    rw [fxItems, denItems, denItems, fx_den hk ho e, fxItems_den hk ho its]
  | .keyed k e its => by
    rw [fxItems, denItems, denItems, fx_den hk ho k, fx_den hk ho e, fxItems_den hk ho its]
end
end

end Verif.Paren
