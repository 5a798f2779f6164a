import Verif.Spec.Paren
/-! Lemmas about the expression parser: printing a well-parenthesised tree and parsing it. -/
namespace Verif.Paren

/-- For all sufficiently large fuel. -/
def Ev {α : Type} (f : Nat → Option α) (x : α) : Prop := ∃ k, ∀ n, k ≤ n → f n = some x

/-- The operator is not taken by the innermost open loop of `e`. -/
def rej (e : Ex) (o : Op) : Bool :=
  match e with
  | .bin o' _ _ => !accepts o (some (prec o'))
  | .un _ _ => !accepts o (some unPrec)
  | _ => true

mutual
/-- `e` has all the parentheses that parsing it at level `p` needs. -/
def Fit (L : Lang) (p : Option Nat) : Ex → Prop
  | .group e => Fit L none e
  | .un o e => isUn L o = true ∧ Fit L (some unPrec) e
  | .bin o l r => isBin L o = true ∧ accepts o p = true ∧ Fit L p l ∧ rej l o = true ∧
      Fit L (some (prec o)) r
  | .member b _ => isPrefix b = true ∧ Fit L none b
  | .index b k => isPrefix b = true ∧ Fit L none b ∧ Fit L none k
  | .call b sh args => isPrefix b = true ∧ Fit L none b ∧ FitArgs L args ∧
      (sh = true → bareArgs args = true)
  | .method b _ sh args => isPrefix b = true ∧ Fit L none b ∧ FitArgs L args ∧
      (sh = true → bareArgs args = true)
  | .table its => FitItems L its
  | _ => True
def FitArgs (L : Lang) : Exs → Prop
  | .nil => True
  | .cons e es => Fit L none e ∧ FitArgs L es
def FitItems (L : Lang) : Its → Prop
  | .nil => True
  | .pos e its => Fit L none e ∧ FitItems L its
  | .named _ e its => Fit L none e ∧ FitItems L its
  | .keyed k e its => Fit L none k ∧ Fit L none e ∧ FitItems L its
end

/-- Does the loop at level `p` holding `e` take the token? -/
def takes (L : Lang) (p : Option Nat) (e : Ex) (t : Tok) : Bool :=
  (isPrefix e && isSuffix t) ||
    (match t with
     | .op o => isBin L o && accepts o p
     | _ => false)

/-- The loop at level `p` holding `e` stops in front of `rest`. -/
def LoopStops (L : Lang) (p : Option Nat) (e : Ex) (rest : List Tok) : Prop :=
  ∀ t r, rest = t :: r → takes L p e t = false

/-- All the loops that are open at the end of `e` stop in front of `rest`. -/
def Stops (L : Lang) : Ex → List Tok → Prop
  | .bin o _ r, rest => LoopStops L (some (prec o)) r rest ∧ Stops L r rest
  | .un _ e, rest => LoopStops L (some unPrec) e rest ∧ Stops L e rest
  | _, _ => True

theorem EndsExpr.loop {L p e rest} (h : EndsExpr rest) : LoopStops L p e rest := by
  intro t r hr
  obtain ⟨h1, h2⟩ := h t r hr
  unfold takes
  rw [h1]
  cases t <;> simp_all

theorem EndsExpr.stops {L e rest} (h : EndsExpr rest) : Stops L e rest := by
  fun_induction Stops L e rest with
  | case1 o l r rest ih => exact ⟨h.loop, ih h⟩
  | case2 o e rest ih => exact ⟨h.loop, ih h⟩
  | case3 => trivial

theorem endsExpr_nil : EndsExpr [] := by intro t r h; cases h
theorem endsExpr_rp (r) : EndsExpr (.rp :: r) := by
  intro t r h; cases h; exact ⟨rfl, by simp⟩
theorem endsExpr_rb (r) : EndsExpr (.rb :: r) := by
  intro t r h; cases h; exact ⟨rfl, by simp⟩
theorem endsExpr_rc (r) : EndsExpr (.rc :: r) := by
  intro t r h; cases h; exact ⟨rfl, by simp⟩
theorem endsExpr_comma (r) : EndsExpr (.comma :: r) := by
  intro t r h; cases h; exact ⟨rfl, by simp⟩

theorem accepts_mono {o : Op} {q q' : Nat} (h : accepts o (some q) = false) (hq : q ≤ q') :
    accepts o (some q') = false := by
  unfold accepts at *
  simp only at *
  split <;> simp_all <;> omega

theorem accepts_eleven {L} {o : Op} (hb : isBin L o = true) {q : Nat} (hq : q ≤ 12)
    (h : accepts o (some q) = false) : accepts o (some unPrec) = false := by
  rcases Nat.lt_or_ge q 12 with h' | h'
  · exact accepts_mono h (by unfold unPrec; omega)
  · have : q = 12 := by omega
    subst this
    revert h hb
    cases o <;> simp [accepts, rightOp, prec, unPrec, isBin]

theorem accepts_le {o : Op} {q : Nat} (h : accepts o (some q) = true) : q ≤ prec o := by
  unfold accepts at h
  simp only at h
  split at h <;> simp at h <;> omega

theorem prec_le (o : Op) : prec o ≤ 12 := by cases o <;> simp [prec]

theorem loopStops_op {L p e o r} (h : accepts o p = false) :
    LoopStops L p e (.op o :: r) := by
  intro t r' ht
  cases ht
  simp [takes, isSuffix, h]

theorem stops_deep {L} {o : Op} {rest : List Tok} (hb : isBin L o = true) :
    ∀ (e : Ex) (q : Nat), q ≤ 12 → Fit L (some q) e → accepts o (some q) = false →
      Stops L e (.op o :: rest)
  | .bin o' l r, q, hq, hf, ha => by
    rw [Fit] at hf
    rw [Stops]
    have h1 := accepts_mono ha (accepts_le hf.2.1)
    exact ⟨loopStops_op h1, stops_deep hb r _ (prec_le _) hf.2.2.2.2 h1⟩
  | .un o' e, q, hq, hf, ha => by
    rw [Fit] at hf
    rw [Stops]
    have h1 := accepts_eleven hb hq ha
    exact ⟨loopStops_op h1, stops_deep hb e _ (by simp [unPrec]) hf.2 h1⟩
  | .var _, _, _, _, _ | .cst _, _, _, _, _ | .num _, _, _, _, _ | .str _, _, _, _, _
  | .fn _, _, _, _, _ | .vararg, _, _, _, _ | .group _, _, _, _, _ | .member _ _, _, _, _, _
  | .index _ _, _, _, _, _ | .call _ _ _, _, _, _, _ | .method _ _ _ _, _, _, _, _
  | .table _, _, _, _, _ => by simp [Stops]

theorem stops_rej {L p} {o : Op} {e : Ex} {rest : List Tok} (hb : isBin L o = true)
    (hf : Fit L p e) (hr : rej e o = true) : Stops L e (.op o :: rest) := by
  cases e with
  | bin o' l r =>
    rw [Fit] at hf
    rw [Stops]
    have h1 : accepts o (some (prec o')) = false := by simpa [rej] using hr
    exact ⟨loopStops_op h1, stops_deep hb r _ (prec_le _) hf.2.2.2.2 h1⟩
  | un o' e =>
    rw [Fit] at hf
    rw [Stops]
    have h1 : accepts o (some unPrec) = false := by simpa [rej] using hr
    exact ⟨loopStops_op h1, stops_deep hb e _ (by simp [unPrec]) hf.2 h1⟩
  | _ => simp [Stops]

theorem ev_loop_stop {L p e rest} (h : LoopStops L p e rest) :
    Ev (fun n => parseLoop L n p e rest) (e, rest) := by
  refine ⟨1, fun n hn => ?_⟩
  obtain ⟨m, rfl⟩ : ∃ m, n = m + 1 := ⟨n - 1, by omega⟩
  cases rest with
  | nil => simp [parseLoop]
  | cons t r =>
    have ht := h t r rfl
    unfold takes at ht
    show parseLoop L (m + 1) p e (t :: r) = some (e, t :: r)
    cases t <;> simp_all [parseLoop, isSuffix]

theorem Ev.succ {α} {f : Nat → Option α} {x : α} (h : Ev (fun n => f (n + 1)) x) : Ev f x := by
  obtain ⟨k, hk⟩ := h
  refine ⟨k + 1, fun n hn => ?_⟩
  obtain ⟨m, rfl⟩ : ∃ m, n = m + 1 := ⟨n - 1, by omega⟩
  exact hk m (by omega)

theorem Ev.congr {α} {f g : Nat → Option α} {x : α} {P : Nat → Prop} (hP : ∃ k, ∀ n, k ≤ n → P n)
    (h : Ev f x) (hfg : ∀ n, P n → f n = g n) : Ev g x := by
  obtain ⟨k, hk⟩ := hP
  obtain ⟨k', hk'⟩ := h
  refine ⟨max k k', fun n hn => ?_⟩
  rw [← hfg n (hk n (by omega))]
  exact hk' n (by omega)

/-- First step of `parseExpr`. -/
theorem ev_expr_of_core {L p toks e r x} (hc : Ev (fun n => parseCore L n toks) (e, r))
    (hl : Ev (fun n => parseLoop L n p e r) x) : Ev (fun n => parseExpr L n p toks) x := by
  apply Ev.succ
  refine Ev.congr hc hl ?_
  intro n hn
  simp only at hn
  simp only [parseExpr, hn]

theorem fit_prefix {L p} {e : Ex} (h : isPrefix e = true) (hf : Fit L none e) : Fit L p e := by
  cases e <;> simp_all [isPrefix, Fit]

theorem stops_prefix {L e rest} (h : isPrefix e = true) : Stops L e rest := by
  cases e <;> simp_all [isPrefix, Stops]

/-- `lemma` on first tokens: neither an expression nor what follows its first token starts with
`=`, and an expression does not start like the other kinds of table items do. -/
def goodStart : Tok → Bool
  | .eq | .lb | .rc | .rp | .comma => false
  | _ => true

mutual
theorem pr_start : ∀ (e : Ex) (rest : List Tok), ∃ t ts, pr e ++ rest = t :: ts ∧
    goodStart t = true ∧ ((∀ s, rest.head? = some s → s ≠ .eq) → ts.head? ≠ some .eq)
  | .var n, rest | .cst n, rest | .num n, rest | .str n, rest | .fn n, rest => by
    refine ⟨_, rest, by simp only [pr, List.cons_append, List.nil_append]; rfl, rfl, ?_⟩
    intro h; cases rest <;> simp_all
  | .vararg, rest => by
    refine ⟨_, rest, by simp only [pr, List.cons_append, List.nil_append]; rfl, rfl, ?_⟩
    intro h; cases rest <;> simp_all
  | .group e, rest => by
    obtain ⟨t, ts, h, hg, _⟩ := pr_start e (.rp :: rest)
    refine ⟨.lp, t :: ts, by simp [pr, ← h], rfl, ?_⟩
    intro _; cases t <;> simp_all [goodStart]
  | .un o e, rest => by
    obtain ⟨t, ts, h, hg, _⟩ := pr_start e rest
    refine ⟨.op o, t :: ts, by simp [pr, ← h], rfl, ?_⟩
    intro _; cases t <;> simp_all [goodStart]
  | .bin o l r, rest => by
    obtain ⟨t, ts, h, hg, h2⟩ := pr_start l (.op o :: (pr r ++ rest))
    exact ⟨t, ts, by simp [pr, ← h], hg, fun _ => h2 (by simp)⟩
  | .member b n, rest => by
    obtain ⟨t, ts, h, hg, h2⟩ := pr_start b (.dot :: .id n :: rest)
    exact ⟨t, ts, by simp [pr, ← h], hg, fun _ => h2 (by simp)⟩
  | .index b k, rest => by
    obtain ⟨t, ts, h, hg, h2⟩ := pr_start b (.lb :: (pr k ++ .rb :: rest))
    exact ⟨t, ts, by simp [pr, ← h], hg, fun _ => h2 (by simp)⟩
  | .call b sh args, rest => by
    cases sh with
    | false =>
      obtain ⟨t, ts, h, hg, h2⟩ := pr_start b (.lp :: (prArgs args ++ rest))
      exact ⟨t, ts, by simp [pr, ← h], hg, fun _ => h2 (by simp)⟩
    | true =>
      obtain ⟨t, ts, h, hg, h2⟩ := pr_start b (prBare args ++ rest)
      refine ⟨t, ts, by simp [pr, ← h], hg, fun hr => h2 ?_⟩
      have := prBare_start args rest hr
      intro s hs he; subst he; exact this hs
  | .method b n sh args, rest => by
    obtain ⟨t, ts, h, hg, h2⟩ := pr_start b
      (.colon :: .id n :: ((if sh then prBare args else .lp :: prArgs args) ++ rest))
    exact ⟨t, ts, by simp [pr, ← h], hg, fun _ => h2 (by simp)⟩
  | .table its, rest => by
    refine ⟨.lc, prItems its ++ rest, by simp [pr], rfl, fun _ => prItems_start its rest⟩
theorem prBare_start : ∀ (args : Exs) (rest : List Tok), (∀ s, rest.head? = some s → s ≠ .eq) →
    (prBare args ++ rest).head? ≠ some .eq
  | .nil, rest, h => by
    simp only [prBare, List.nil_append]
    intro h'; exact h _ h' rfl
  | .cons e es, rest, _ => by
    obtain ⟨t, ts, h, hg, _⟩ := pr_start e (prBare es ++ rest)
    simp only [prBare, List.append_assoc, h]
    cases t <;> simp_all [goodStart]
theorem prItems_start : ∀ (its : Its) (rest : List Tok), (prItems its ++ rest).head? ≠ some .eq
  | .nil, rest => by simp [prItems]
  | .pos e its, rest => by
    obtain ⟨t, ts, h, hg, _⟩ := pr_start e ((match its with
      | .nil => [Tok.rc] | i => .comma :: prItems i) ++ rest)
    cases its <;> simp only [prItems, List.append_assoc, h] <;> cases t <;> simp_all [goodStart]
  | .named n e its, rest => by cases its <;> simp [prItems]
  | .keyed k e its, rest => by cases its <;> simp [prItems]
end

/-- What follows an item of a table. -/
def sepItems : Its → List Tok
  | .nil => [.rc]
  | its => .comma :: prItems its

theorem prItems_pos (e its) : prItems (.pos e its) = pr e ++ sepItems its := by
  cases its <;> simp [prItems, sepItems]
theorem prItems_named (n e its) :
    prItems (.named n e its) = .id n :: .eq :: (pr e ++ sepItems its) := by
  cases its <;> simp [prItems, sepItems]
theorem prItems_keyed (k e its) :
    prItems (.keyed k e its) = .lb :: (pr k ++ .rb :: .eq :: (pr e ++ sepItems its)) := by
  cases its <;> simp [prItems, sepItems]

theorem endsExpr_sep (its rest) : EndsExpr (sepItems its ++ rest) := by
  cases its
  · exact endsExpr_rc _
  all_goals exact endsExpr_comma _

theorem ev_sep {L its rest} (h : Ev (fun n => parseItems L n (prItems its ++ rest)) (its, rest)) :
    Ev (fun n => parseSep L n (sepItems its ++ rest)) (its, rest) := by
  cases its with
  | nil =>
    exact Ev.succ ⟨0, fun n _ => by simp [parseSep, sepItems]⟩
  | _ =>
    apply Ev.succ
    simpa [parseSep, sepItems] using h

theorem ev_and {α β} {f : Nat → Option α} {g : Nat → Option β} {x y} (h : Ev f x) (h' : Ev g y) :
    ∃ k, ∀ n, k ≤ n → f n = some x ∧ g n = some y := by
  obtain ⟨k, hk⟩ := h
  obtain ⟨k', hk'⟩ := h'
  exact ⟨max k k', fun n hn => ⟨hk n (by omega), hk' n (by omega)⟩⟩

theorem Ev.mono_of {α} {f : Nat → Option α} {x : α} {P : Nat → Prop}
    (hP : ∃ k, ∀ n, k ≤ n → P n) (h : ∀ n, P n → f (n + 1) = some x) : Ev f x := by
  obtain ⟨k, hk⟩ := hP
  exact Ev.succ ⟨k, fun n hn => h n (hk n hn)⟩

theorem ev_args (L : Lang) (rest : List Tok) : ∀ (args : Exs),
    (args ≠ .nil → Ev (fun n => parseArgs1 L n (prArgs args ++ rest)) (args, rest)) →
    Ev (fun n => parseArgs L n (prArgs args ++ rest)) (args, rest)
  | .nil, _ => Ev.succ ⟨0, fun n _ => by simp [parseArgs, prArgs]⟩
  | .cons e es, h1 => by
    refine Ev.mono_of (h1 (by simp)) fun n hn => ?_
    obtain ⟨t, ts, h, hg, _⟩ : ∃ t ts, prArgs (.cons e es) ++ rest = t :: ts ∧ goodStart t = true ∧
        True := by
      cases es with
      | nil =>
        obtain ⟨t, ts, h, hg, _⟩ := pr_start e (.rp :: rest)
        exact ⟨t, ts, by simpa [prArgs] using h, hg, trivial⟩
      | cons e' es' =>
        obtain ⟨t, ts, h, hg, _⟩ := pr_start e (.comma :: (prArgs (.cons e' es') ++ rest))
        exact ⟨t, ts, by simpa [prArgs] using h, hg, trivial⟩
    simp only at hn ⊢
    rw [h] at hn ⊢
    cases t <;> simp_all [parseArgs, goodStart]

mutual
/-- Parsing the tokens of a well-parenthesised expression leads to the loop holding exactly that
expression. -/
theorem ev_pr (L : Lang) : ∀ (e : Ex) (p : Option Nat) (rest : List Tok) (x : Ex × List Tok),
    Fit L p e → Stops L e rest → Ev (fun n => parseLoop L n p e rest) x →
    Ev (fun n => parseExpr L n p (pr e ++ rest)) x
  | .var m, p, rest, x, _, _, hl | .cst m, p, rest, x, _, _, hl | .num m, p, rest, x, _, _, hl
  | .str m, p, rest, x, _, _, hl | .fn m, p, rest, x, _, _, hl | .vararg, p, rest, x, _, _, hl => by
    refine ev_expr_of_core ?_ hl
    exact Ev.succ ⟨0, fun n _ => by simp [pr, parseCore]⟩
  | .group e, p, rest, x, hf, hs, hl => by
    rw [Fit] at hf
    refine ev_expr_of_core ?_ hl
    have ih := ev_pr L e none (.rp :: rest) _ hf (endsExpr_rp _).stops
      (ev_loop_stop (endsExpr_rp _).loop)
    refine Ev.mono_of ih fun n hn => ?_
    simp only [pr, List.cons_append, List.append_assoc, List.nil_append, parseCore]
    simp only at hn
    rw [hn]
  | .un o e, p, rest, x, hf, hs, hl => by
    rw [Fit] at hf
    rw [Stops] at hs
    refine ev_expr_of_core ?_ hl
    have ih := ev_pr L e (some unPrec) rest _ hf.2 hs.2 (ev_loop_stop hs.1)
    refine Ev.mono_of ih fun n hn => ?_
    simp only at hn
    simp only [pr, List.cons_append, parseCore, hf.1, if_true, hn]
  | .bin o l r, p, rest, x, hf, hs, hl => by
    rw [Fit] at hf
    rw [Stops] at hs
    obtain ⟨hb, ha, hfl, hrej, hfr⟩ := hf
    have ihr := ev_pr L r (some (prec o)) rest _ hfr hs.2 (ev_loop_stop hs.1)
    have hloop : Ev (fun n => parseLoop L n p l (.op o :: (pr r ++ rest))) x := by
      refine Ev.mono_of (ev_and ihr hl) fun n hn => ?_
      simp only [parseLoop, hb, ha, Bool.and_self, if_true, hn.1]
      exact hn.2
    have := ev_pr L l p (.op o :: (pr r ++ rest)) x hfl (stops_rej hb hfl hrej) hloop
    simpa [pr] using this
  | .member b m, p, rest, x, hf, hs, hl => by
    rw [Fit] at hf
    have hloop : Ev (fun n => parseLoop L n p b (.dot :: .id m :: rest)) x := by
      refine Ev.mono_of hl fun n hn => ?_
      simp only [parseLoop, hf.1, if_true]
      exact hn
    have := ev_pr L b p _ x (fit_prefix hf.1 hf.2) (stops_prefix hf.1) hloop
    simpa [pr] using this
  | .index b k, p, rest, x, hf, hs, hl => by
    rw [Fit] at hf
    have ihk := ev_pr L k none (.rb :: rest) _ hf.2.2 (endsExpr_rb _).stops
      (ev_loop_stop (endsExpr_rb _).loop)
    have hloop : Ev (fun n => parseLoop L n p b (.lb :: (pr k ++ .rb :: rest))) x := by
      refine Ev.mono_of (ev_and ihk hl) fun n hn => ?_
      simp only [parseLoop, hf.1, if_true, hn.1]
      exact hn.2
    have := ev_pr L b p _ x (fit_prefix hf.1 hf.2.1) (stops_prefix hf.1) hloop
    simpa [pr] using this
  | .call b sh args, p, rest, x, hf, hs, hl => by
    rw [Fit] at hf
    obtain ⟨hp, hfb, hfa, hsh⟩ := hf
    cases sh with
    | false =>
      have iha := ev_args L rest args (ev_args1 L args rest hfa)
      have hloop : Ev (fun n => parseLoop L n p b (.lp :: (prArgs args ++ rest))) x := by
        refine Ev.mono_of (ev_and iha hl) fun n hn => ?_
        simp only [parseLoop, hp, if_true, hn.1]
        exact hn.2
      have := ev_pr L b p _ x (fit_prefix hp hfb) (stops_prefix hp) hloop
      simpa [pr] using this
    | true =>
      obtain ⟨arg, t, r, hargs, ht, hc, hpr⟩ := ev_bare L args rest hfa (hsh rfl)
      have hloop : Ev (fun n => parseLoop L n p b (t :: r)) x := by
        refine Ev.mono_of (ev_and hc hl) fun n hn => ?_
        subst hargs
        rcases ht with rfl | ⟨s, rfl⟩ <;> simp only [parseLoop, hp, if_true, hn.1] <;> exact hn.2
      have := ev_pr L b p _ x (fit_prefix hp hfb) (stops_prefix hp) hloop
      simpa [pr, hpr] using this
  | .method b m sh args, p, rest, x, hf, hs, hl => by
    rw [Fit] at hf
    obtain ⟨hp, hfb, hfa, hsh⟩ := hf
    cases sh with
    | false =>
      have iha := ev_args L rest args (ev_args1 L args rest hfa)
      have hloop : Ev (fun n => parseLoop L n p b (.colon :: .id m :: .lp :: (prArgs args ++ rest)))
          x := by
        refine Ev.mono_of (ev_and iha hl) fun n hn => ?_
        simp only [parseLoop, hp, if_true, hn.1]
        exact hn.2
      have := ev_pr L b p _ x (fit_prefix hp hfb) (stops_prefix hp) hloop
      simpa [pr] using this
    | true =>
      obtain ⟨arg, t, r, hargs, ht, hc, hpr⟩ := ev_bare L args rest hfa (hsh rfl)
      have hloop : Ev (fun n => parseLoop L n p b (.colon :: .id m :: t :: r)) x := by
        refine Ev.mono_of (ev_and hc hl) fun n hn => ?_
        subst hargs
        rcases ht with rfl | ⟨s, rfl⟩ <;> simp only [parseLoop, hp, if_true, hn.1] <;> exact hn.2
      have := ev_pr L b p _ x (fit_prefix hp hfb) (stops_prefix hp) hloop
      simpa [pr, hpr] using this
  | .table its, p, rest, x, hf, hs, hl => by
    rw [Fit] at hf
    refine ev_expr_of_core ?_ hl
    refine Ev.mono_of (ev_items L its rest hf) fun n hn => ?_
    simp only at hn
    simp only [pr, List.cons_append, parseCore, hn]
theorem ev_bare (L : Lang) : ∀ (args : Exs) (rest : List Tok), FitArgs L args →
    bareArgs args = true → ∃ arg t r, args = .cons arg .nil ∧ (t = .lc ∨ ∃ s, t = .str s) ∧
      Ev (fun n => parseCore L n (t :: r)) (arg, rest) ∧ prBare args ++ rest = t :: r
  | .nil, _, _, hb => by simp [bareArgs] at hb
  | .cons (.str s) .nil, rest, _, _ =>
    ⟨_, .str s, rest, rfl, .inr ⟨s, rfl⟩, Ev.succ ⟨0, fun n _ => by simp [parseCore]⟩,
      by simp [prBare, pr]⟩
  | .cons (.table its) .nil, rest, hf, _ => by
    refine ⟨_, .lc, prItems its ++ rest, rfl, .inl rfl, ?_, by simp [prBare, pr]⟩
    simp only [FitArgs, Fit] at hf
    refine Ev.mono_of (ev_items L its rest hf.1) fun n hn => ?_
    simp only at hn
    simp only [parseCore, hn]
  | .cons (.var _) .nil, _, _, hb | .cons (.cst _) .nil, _, _, hb | .cons (.num _) .nil, _, _, hb
  | .cons (.fn _) .nil, _, _, hb | .cons .vararg .nil, _, _, hb | .cons (.group _) .nil, _, _, hb
  | .cons (.un _ _) .nil, _, _, hb | .cons (.bin _ _ _) .nil, _, _, hb
  | .cons (.member _ _) .nil, _, _, hb | .cons (.index _ _) .nil, _, _, hb
  | .cons (.call _ _ _) .nil, _, _, hb | .cons (.method _ _ _ _) .nil, _, _, hb => by
    simp [bareArgs] at hb
  | .cons e (.cons e' es), _, _, hb => by cases e <;> simp [bareArgs] at hb
theorem ev_args1 (L : Lang) : ∀ (args : Exs) (rest : List Tok), FitArgs L args → args ≠ .nil →
    Ev (fun n => parseArgs1 L n (prArgs args ++ rest)) (args, rest)
  | .nil, _, _, hne => absurd rfl hne
  | .cons e .nil, rest, hf, _ => by
    rw [FitArgs] at hf
    have ih := ev_pr L e none (.rp :: rest) _ hf.1 (endsExpr_rp _).stops
      (ev_loop_stop (endsExpr_rp _).loop)
    refine Ev.mono_of ih fun n hn => ?_
    simp only [prArgs, List.append_assoc, List.cons_append, List.nil_append, parseArgs1]
    simp only at hn
    rw [hn]
  | .cons e (.cons e' es), rest, hf, _ => by
    rw [FitArgs] at hf
    have ih := ev_pr L e none (.comma :: (prArgs (.cons e' es) ++ rest)) _ hf.1
      (endsExpr_comma _).stops (ev_loop_stop (endsExpr_comma _).loop)
    have ih2 := ev_args1 L (.cons e' es) rest hf.2 (by simp)
    refine Ev.mono_of (ev_and ih ih2) fun n hn => ?_
    simp only [prArgs, List.append_assoc, List.cons_append, parseArgs1]
    rw [hn.1]
    simp only [hn.2]
theorem ev_items (L : Lang) : ∀ (its : Its) (rest : List Tok), FitItems L its →
    Ev (fun n => parseItems L n (prItems its ++ rest)) (its, rest)
  | .nil, rest, _ => Ev.succ ⟨0, fun n _ => by simp [parseItems, prItems]⟩
  | .pos e its, rest, hf => by
    rw [FitItems] at hf
    have ih := ev_pr L e none (sepItems its ++ rest) _ hf.1 (endsExpr_sep _ _).stops
      (ev_loop_stop (endsExpr_sep _ _).loop)
    have ih2 := ev_sep (ev_items L its rest hf.2)
    refine Ev.mono_of (ev_and ih ih2) fun n hn => ?_
    obtain ⟨hn1, hn2⟩ := hn
    obtain ⟨t, ts, h, hg, h2⟩ := pr_start e (sepItems its ++ rest)
    have h3 := h2 (by cases its <;> simp [sepItems])
    rw [prItems_pos, List.append_assoc]
    rw [h] at hn1 ⊢
    cases ts with
    | nil =>
      cases t <;> simp_all [goodStart, parseItems]
    | cons t2 ts =>
      have h4 : t2 ≠ .eq := by simpa using h3
      cases t <;> simp_all [goodStart, parseItems]
  | .named m e its, rest, hf => by
    rw [FitItems] at hf
    have ih := ev_pr L e none (sepItems its ++ rest) _ hf.1 (endsExpr_sep _ _).stops
      (ev_loop_stop (endsExpr_sep _ _).loop)
    have ih2 := ev_sep (ev_items L its rest hf.2)
    refine Ev.mono_of (ev_and ih ih2) fun n hn => ?_
    simp only [prItems_named, List.append_assoc, List.cons_append, parseItems, hn.1, hn.2]
  | .keyed k e its, rest, hf => by
    rw [FitItems] at hf
    have ihk := ev_pr L k none (.rb :: .eq :: (pr e ++ (sepItems its ++ rest))) _ hf.1
      (endsExpr_rb _).stops (ev_loop_stop (endsExpr_rb _).loop)
    have ih := ev_pr L e none (sepItems its ++ rest) _ hf.2.1 (endsExpr_sep _ _).stops
      (ev_loop_stop (endsExpr_sep _ _).loop)
    have ih2 := ev_sep (ev_items L its rest hf.2.2)
    have h3 : ∃ k', ∀ n, k' ≤ n → _ := ev_and ih ih2
    obtain ⟨k1, hk1⟩ := ihk
    obtain ⟨k2, hk2⟩ := h3
    refine Ev.succ ⟨max k1 k2, fun n hn => ?_⟩
    have a := hk1 n (by omega)
    have b := hk2 n (by omega)
    simp only [prItems_keyed, List.append_assoc, List.cons_append, parseItems]
    simp only at a
    rw [a]
    simp only [b.1, b.2]
end

/-- Parsing the tokens of a well-parenthesised expression gives it back. -/
theorem reparse {L e rest} (hf : Fit L none e) (hr : EndsExpr rest) :
    Ev (fun n => parseExpr L n none (pr e ++ rest)) (e, rest) :=
  ev_pr L e none rest _ hf hr.stops (ev_loop_stop hr.loop)

end Verif.Paren
