import Verif.UnminifyJoin
import Verif.MinifyTokens
import Verif.Spec.Long
/-
What `unminify_code` puts out is a chain of tokens that are told apart.
-/
set_option linter.unusedVariables false
set_option linter.unusedSimpArgs false
set_option linter.unusedSectionVars false
namespace Verif.Unmin
open Syntax Mini
open Long (fitE fitEs fitIts fitS fitI fitT fitB ellE ellEs ellIts ellS ellI ellT ellB noSemi isNeg bracketE)
open LuaGrammar (unaryOps)
open Paren (Op Lang)

section
variable {x : Bool} {L : Lang} {sh : Bool}

theorem fk_pre : ∀ {e : Ex}, fE x L sh e → isPre e = true → fk e = .lp ∨ ∃ y, fk e = .id y
  | .var y, _, _ => .inr ⟨y, rfl⟩
  | .group _, _, _ => .inl rfl
  | .member b _, h, _ => by simp only [fE] at h; exact fk_pre (e := b) h.2 h.1
  | .index b _, h, _ => by simp only [fE] at h; exact fk_pre (e := b) h.2.1 h.1
  | .call b _ _, h, _ => by simp only [fE] at h; exact fk_pre (e := b) h.2.1 h.1
  | .method b _ _ _, h, _ => by simp only [fE] at h; exact fk_pre (e := b) h.2.1 h.1
  | .num _, _, h | .str _, _, h | .cst _, _, h | .vararg, _, h | .func _ _, _, h | .un _ _, _, h | .bin _ _ _, _, h | .table _, _, h => by cases h

theorem fk_op : ∀ {e : Ex}, fE x L sh e → ∀ o, fk e = .op o → o ∈ unaryOps L
  | .un o _, h, _, h' => by simp only [fE] at h; cases h'; exact h.1
  | .bin _ l _, h, o, h' => by simp only [fE] at h; exact fk_op (e := l) h.2.2.2.1 o h'
  | .member b _, h, o, h' => by simp only [fE] at h; exact fk_op (e := b) h.2 o h'
  | .index b _, h, o, h' => by simp only [fE] at h; exact fk_op (e := b) h.2.1 o h'
  | .call b _ _, h, o, h' => by simp only [fE] at h; exact fk_op (e := b) h.2.1 o h'
  | .method b _ _ _, h, o, h' => by simp only [fE] at h; exact fk_op (e := b) h.2.1 o h'
  | .var _, _, _, h | .num _, _, _, h | .str _, _, _, h | .cst _, _, _, h | .vararg, _, _, h | .func _ _, _, _, h | .group _, _, _, h | .table _, _, _, h => by cases h

theorem pre_of {b : Ex} {k : K} (h : fE x L sh b) (hp : isPre b = true) (hk : fk b = k) (h1 : k ≠ .lp) (h2 : ∀ y, k ≠ .id y) : False := by
  rcases fk_pre h hp with e | ⟨y, e⟩
  · exact h1 (hk ▸ e)
  · exact h2 y (hk ▸ e)

theorem fk_atom {e : Ex} (h : fE x L sh e) (hl : 13 ≤ Mini.lvl e) (hk : fk e = .op .minus) : False := by
  cases e with
  | un o e => simp [Mini.lvl] at hl
  | bin o l r => cases o <;> simp [Mini.lvl, Paren.prec] at hl
  | member b y => simp only [fE] at h; exact pre_of h.2 h.1 hk (by simp) (by simp)
  | index b y => simp only [fE] at h; exact pre_of h.2.1 h.1 hk (by simp) (by simp)
  | call b t y => simp only [fE] at h; exact pre_of h.2.1 h.1 hk (by simp) (by simp)
  | method b y t z => simp only [fE] at h; exact pre_of h.2.1 h.1 hk (by simp) (by simp)
  | _ => cases hk

theorem fk_neg {e : Ex} (h : fE x L sh e) (hl : 11 ≤ Mini.lvl e) (hk : fk e = .op .minus) : isNeg e = true := by
  cases e with
  | un o e => cases hk; rfl
  | bin o l r =>
    simp only [fE] at h
    by_cases ho : o = .caret
    · subst ho; exact (fk_atom h.2.2.2.1 h.2.1 hk).elim
    · exfalso
      have h1 := h.1
      cases o <;> simp [Mini.lvl, Paren.prec] at hl <;> simp [LuaGrammar.Binary, LuaGrammar.leftOps] at h1 <;> grind
  | _ => exact (fk_atom h (by simp [Mini.lvl]) hk).elim

theorem fk_bracket {s : String} (hs : s.toList.head? = some '[') : ∀ {e : Ex}, fE x L sh e → fk e = .str s → bracketE e = true
  | .str _, _, h => by cases h; simp [bracketE, hs]
  | .bin _ l _, h, hk => by simp only [fE] at h; exact fk_bracket hs (e := l) h.2.2.2.1 hk
  | .member b _, h, hk => by simp only [fE] at h; exact (pre_of h.2 h.1 hk (by simp) (by simp)).elim
  | .index b _, h, hk => by simp only [fE] at h; exact (pre_of h.2.1 h.1 hk (by simp) (by simp)).elim
  | .call b _ _, h, hk => by simp only [fE] at h; exact (pre_of h.2.1 h.1 hk (by simp) (by simp)).elim
  | .method b _ _ _, h, hk => by simp only [fE] at h; exact (pre_of h.2.1 h.1 hk (by simp) (by simp)).elim
  | .var _, _, h | .num _, _, h | .un _ _, _, h | .cst _, _, h | .vararg, _, h | .func _ _, _, h | .group _, _, h | .table _, _, h => by cases h
end

/-! ### Names -/

theorem sure_of {k : K} (h : Fixed k := by trivial) : Sure k := sure_fixed k h

theorem plain_append : ∀ a b : List M, plain (a ++ b) = plain a ++ plain b
  | [], _ => rfl
  | .t _ :: a, b => congrArg _ (plain_append a b)
  | .nl :: a, b => plain_append a b

theorem lk_params : ∀ (ps : List Param) (st : Sta), (∀ k, k = .rp ∨ startK k = true → Ok st k) → AllT Sure (prParams ps) → Lk st (plain (prParams ps)) (.tight .rp false)
  | [], st, h, _ => ⟨h _ (.inl rfl), sure_of, rfl⟩
  | [p], st, h, hs => by
    have h1 : startK (prPar p) = true := by cases p <;> rfl
    have h2 : endK (prPar p) = true := by cases p <;> rfl
    exact ⟨h _ (.inr h1), hs.1, ok_end h2 hs.1 (by simp), sure_of, rfl⟩
  | p :: q :: ps, st, h, hs => by
    have h1 : startK (prPar p) = true := by cases p <;> rfl
    have h2 : endK (prPar p) = true := by cases p <;> rfl
    refine ⟨h _ (.inr h1), hs.1, ok_end h2 hs.1 (by simp), sure_of, ?_⟩
    cases ps with
    | nil =>
      have h3 : startK (prPar q) = true := by cases q <;> rfl
      have h4 : endK (prPar q) = true := by cases q <;> rfl
      have hs' := hs.2.2
      exact ⟨ok_sep rfl h3, hs'.1, ok_end h4 hs'.1 (by simp), sure_of, rfl⟩
    | cons r ps =>
      have h3 : startK (prPar q) = true := by cases q <;> rfl
      have h4 : endK (prPar q) = true := by cases q <;> rfl
      have hs' := hs.2.2
      have ih := lk_params (q :: r :: ps) .clear (fun _ _ => trivial) hs'
      exact ⟨ok_sep rfl h3, ih.2⟩

theorem lk_names : ∀ (xs : List Nm) (st : Sta), xs ≠ [] → Opn st → AllT Sure (prNames xs) → ∃ y, Sure (.id y) ∧ Lk st (plain (prNames xs)) (.tight (.id y) false)
  | [], _, h, _, _ => absurd rfl h
  | [x], _, _, h, hs => ⟨x, hs.1, h _ rfl, hs.1, rfl⟩
  | x :: y :: xs, _, _, h, hs => by
    obtain ⟨z, hz, ih⟩ := lk_names (y :: xs) (.tight .comma false) (by simp) (opn_sep rfl) hs.2.2
    exact ⟨z, hz, h _ rfl, hs.1, ok_end rfl hs.1 (by simp), sure_of, ih⟩

theorem lk_locals : ∀ (xs : List (Nm × Option Nm)) (st : Sta), xs ≠ [] → (∀ p ∈ xs, okAttr .pico8 p.2) → Opn st → AllT Sure (prLocals xs) →
    ∃ y, Sure (.id y) ∧ Lk st (plain (prLocals xs)) (.tight (.id y) false)
  | [], _, h, _, _, _ => absurd rfl h
  | [(x, some a)], _, _, ha, _, _ => by have := (ha (x, some a) (by simp) a rfl).1; cases this
  | (x, some a) :: _ :: _, _, _, ha, _, _ => by have := (ha (x, some a) (by simp) a rfl).1; cases this
  | [(x, none)], _, _, _, h, hs => ⟨x, hs.1, h _ rfl, hs.1, rfl⟩
  | (x, none) :: y :: xs, _, _, ha, h, hs => by
    obtain ⟨z, hz, ih⟩ := lk_locals (y :: xs) (.tight .comma false) (by simp) (fun p hp => ha p (by simp [hp])) (opn_sep rfl) hs.2.2
    exact ⟨z, hz, h _ rfl, hs.1, ok_end rfl hs.1 (by simp), sure_of, ih⟩

theorem lk_keys : ∀ (ks : List Nm) (x : Nm), Sure (.id x) → AllT Sure (ks.flatMap fun x => [.t .dot, .t (.id x)]) →
    ∃ y, Sure (.id y) ∧ Lk (.tight (.id x) false) (plain (ks.flatMap fun x => [.t .dot, .t (.id x)])) (.tight (.id y) false)
  | [], x, hx, _ => ⟨x, hx, rfl⟩
  | k :: ks, x, hx, hs => by
    simp only [List.flatMap_cons, allT_append, allT_t] at hs
    obtain ⟨y, hy, ih⟩ := lk_keys ks k hs.1.2.1 hs.2
    exact ⟨y, hy, ok_end rfl hx (by simp), sure_of, ok_dot hs.1.2.1, hs.1.2.1, ih⟩

theorem lk_name (f : FnName) (hs : AllT Sure (prName f)) : ∃ y, Sure (.id y) ∧ Lk (.tight .kFunction false) (plain (prName f)) (.tight (.id y) false) := by
  obtain ⟨b, ks, m⟩ := f
  simp only [prName, allT_append, allT_t] at hs
  obtain ⟨y, hy, h⟩ := lk_keys ks b hs.1 hs.2.1
  cases m with
  | none =>
    refine ⟨y, hy, ?_⟩
    simp only [prName, plain, plain_append, Option.toList_none, List.flatMap_nil, List.append_nil]
    exact ⟨ok_function _ (.inr rfl), hs.1, h⟩
  | some m =>
    simp only [Option.toList_some, List.flatMap_cons, List.flatMap_nil, List.append_nil, allT_t, allT_nil] at hs
    refine ⟨m, hs.2.2.2.1, ?_⟩
    simp only [prName, plain, plain_append, Option.toList_some, List.flatMap_cons, List.flatMap_nil, List.append_nil]
    refine ⟨ok_function _ (.inr rfl), hs.1, Lk.append ?_ h⟩
    exact ⟨ok_end rfl hy (by simp), sure_of, ok_colon hs.2.2.2.1, hs.2.2.2.1, rfl⟩

/-! ### Trees -/

theorem Lk.app {us vs : List U} {s s' s'' : Sta} (h : Lk s us s') (h' : Lk s' vs s'') : Lk s (us ++ vs) s'' := Lk.append h' h

theorem ok_comma (k : K) : Ok (.tight .comma false) k := .inr fun c _ => rfl

theorem lk_pre {sh : Bool} {e : Ex} (h : fE false .pico8 sh e) (hp : isPre e = true) : ∀ s, lk e ≠ .num s := by
  intro s
  cases e with
  | call b t as =>
    cases t with
    | false => simp [lk]
    | true =>
      simp only [fE] at h
      have := h.2.2.2 trivial
      unfold bareArg at this
      split at this <;> simp [lk, lks] at this ⊢
  | method b x t as =>
    cases t with
    | false => simp [lk]
    | true =>
      simp only [fE] at h
      have := h.2.2.2 trivial
      unfold bareArg at this
      split at this <;> simp [lk, lks] at this ⊢
  | num => cases hp
  | un => cases hp
  | bin => cases hp
  | _ => simp [lk]

theorem bare_start {as : Exs} (h : bareArg as = true) : as ≠ .nil ∧ ∀ a, endK a = true → Sure a → Ok (.tight a false) (fks as) := by
  unfold bareArg at h
  split at h
  · exact ⟨by simp, fun a ha hs => ok_end ha hs (by simp [fks, fk])⟩
  · exact ⟨by simp, fun a ha hs => ok_end ha hs (by simp [fks, fk])⟩
  · cases h

theorem uL_eq (ind : List Nat) : ∀ (b : Block) (n : Nat) (p : Option Bool), noSemi b = true → uL ind n p b = uB ind n p b
  | .nil, _, _, _ => by simp [uL, uB]
  | .semi _, _, _, h => by cases h
  | .cons s b, n, p, h => by simp only [uL, uB, uL_eq ind b n (some (isFn s)) h]

section
variable {ind : List Nat} (hi : ∀ c ∈ ind, isWspace c = true) {th : K}

include hi in
theorem indent_ws (n : Nat) : ∀ c ∈ indent ind n, isWspace c = true := by
  intro c hc
  simp only [indent, List.mem_flatten, List.mem_replicate] at hc
  obtain ⟨l, ⟨_, rfl⟩, h⟩ := hc
  exact hi c h

theorem lk_newline {st st' : Sta} {us : List U} (h : Lk .clear us st') : Lk st (newline :: us) st' :=
  ⟨by simp [isWspace], by simp, h⟩

include hi in
theorem lk_indent {st' : Sta} {us : List U} {n : Nat} (h : Lk .clear us st') : Lk .clear (.raw (indent ind n) :: us) st' :=
  ⟨indent_ws hi n, fun _ => rfl, h⟩

include hi in
theorem lk_body {b : Block} (hb : ∀ n p, Lk .clear (uB ind n p b) .clear) {st st' : Sta} {n : Nat} {us : List U} (h : Lk .clear us st') :
    Lk st (newline :: (uB ind (n + 1) none b ++ .raw (indent ind n) :: us)) st' :=
  lk_newline ((hb _ _).app (lk_indent hi h))

theorem lk_end : Lk .clear [tk .kEnd] (.tight .kEnd false) := ⟨trivial, sure_of, rfl⟩

theorem lk_sep {es : Exs} {a : K} (ha : endK a = true) (hs : Sure a) {n : Nat} {us : List U} {st' : Sta}
    (ih : es ≠ .nil → (∀ n st, Ok st (fks es) → Lk st (uEs ind n es) (.tight (lks es) false)) ∧ endK (lks es) = true ∧ Sure (lks es) ∧ Sure (fks es))
    (h : ∀ k, endK k = true → Sure k → Lk (.tight k false) us st') : Lk (.tight a false) (plain (sepEs es) ++ (uEs ind n es ++ us)) st' := by
  cases es with
  | nil => simpa [sepEs, plain, uEs] using h a ha hs
  | cons e es =>
    obtain ⟨h1, h2, h3, _⟩ := ih (by simp)
    exact ⟨ok_end ha hs (by simp), sure_of, (h1 n _ (ok_comma _)).app (h _ h2 h3)⟩

theorem lk_its {its : Its} {a : K} (ha : endK a = true) (hs : Sure a) {n : Nat}
    (ih : ∀ n st, (∀ k, Ok st k) → Lk st (uIts ind n its ++ [tk .rc]) (.tight .rc false)) :
    Lk (.tight a false) (plain (sepIts its) ++ (uIts ind n its ++ [tk .rc])) (.tight .rc false) := by
  have hc : ∀ us, Lk (.tight .comma false) us (.tight .rc false) → Lk (.tight a false) (tk .comma :: us) (.tight .rc false) :=
    fun us h => ⟨ok_end ha hs (by simp), sure_of, h⟩
  cases its with
  | nil =>
    simp only [sepIts, plain, uIts, List.nil_append]
    exact ⟨ok_end ha hs (by simp), sure_of, rfl⟩
  | _ => exact hc _ (ih n _ ok_comma)

include hi
set_option maxHeartbeats 4000000 in
mutual
theorem cE : ∀ (e : Ex) (sh : Bool), fE false .pico8 sh e → fitE e = true → ellE e = true → AllT Sure (prE th sh e) →
    (∀ n st, Ok st (fk e) → Lk st (uE ind n e) (.tight (lk e) false)) ∧ endK (lk e) = true ∧ Sure (lk e) ∧ Sure (fk e)
  | .var x, sh, h, hf, hl, hs => by
    simp only [prE, allT_t, allT_nil] at hs
    exact ⟨fun n st ho => ⟨ho, hs.1, rfl⟩, rfl, hs.1, hs.1⟩
  | .num x, sh, h, hf, hl, hs => by
    simp only [prE, allT_t, allT_nil] at hs
    exact ⟨fun n st ho => ⟨ho, hs.1, rfl⟩, rfl, hs.1, hs.1⟩
  | .str x, sh, h, hf, hl, hs => by
    simp only [prE, allT_t, allT_nil] at hs
    exact ⟨fun n st ho => ⟨ho, hs.1, rfl⟩, rfl, hs.1, hs.1⟩
  | .cst x, sh, h, hf, hl, hs => by
    simp only [prE, allT_t, allT_nil] at hs
    exact ⟨fun n st ho => ⟨ho, hs.1, rfl⟩, rfl, hs.1, hs.1⟩
  | .vararg, sh, h, hf, hl, hs => ⟨fun n st ho => ⟨ho, sure_of, rfl⟩, rfl, sure_of, sure_of⟩
  | .func ps b, sh, h, hf, hl, hs => by
    simp only [fE, fitE, ellE, prE, allT_t, allT_append] at h hf hl hs
    have ih := cB b sh true h hf hl hs.2.2.2.1
    refine ⟨fun n st ho => ?_, rfl, sure_of, sure_of⟩
    simp only [uE]
    exact ⟨ho, sure_of, ok_function _ (.inl rfl), sure_of, (lk_params ps _ (fun k _ => ok_lp k) hs.2.2.1).app (lk_body hi ih lk_end)⟩
  | .group e, sh, h, hf, hl, hs => by
    simp only [fE, fitE, ellE, prE, allT_t, allT_append] at h hf hl hs
    obtain ⟨h1, h2, h3, _⟩ := cE e sh h hf hl hs.2.1
    refine ⟨fun n st ho => ?_, rfl, sure_of, sure_of⟩
    simp only [uE]
    exact ⟨ho, sure_of, (h1 n _ (ok_lp _)).app ⟨ok_end h2 h3 (by simp), sure_of, rfl⟩⟩
  | .un o e, sh, h, hf, hl, hs => by
    simp only [fE, fitE, ellE, prE, allT_t, allT_append, Bool.and_eq_true] at h hf hl hs
    obtain ⟨h1, h2, h3, h4⟩ := cE e sh h.2.2 hf.2 hl hs.2
    refine ⟨fun n st ho => ?_, h2, h3, hs.1⟩
    simp only [uE]
    refine ⟨ho, hs.1, h1 n _ (ok_un h.1 h4 (start_fk e) (fk_op h.2.2) ?_)⟩
    rintro rfl hk
    have := fk_neg h.2.2 h.2.1 hk
    simp [this] at hf
  | .bin o l r, sh, h, hf, hl, hs => by
    simp only [fE, fitE, ellE, prE, allT_t, allT_append, Bool.and_eq_true] at h hf hl hs
    obtain ⟨h1, h2, h3, h4⟩ := cE l sh h.2.2.2.1 hf.1 hl.1 hs.1
    obtain ⟨g1, g2, g3, g4⟩ := cE r sh h.2.2.2.2 hf.2 hl.2 hs.2.2
    refine ⟨fun n st ho => ?_, g2, g3, h4⟩
    simp only [uE]
    exact (h1 n _ ho).app ⟨ok_end h2 h3 (by simp), hs.2.1, g1 n _ (ok_sep rfl (start_fk r))⟩
  | .member b x, sh, h, hf, hl, hs => by
    simp only [fE, fitE, ellE, prE, allT_t, allT_append, Bool.and_eq_true] at h hf hl hs
    obtain ⟨h1, h2, h3, h4⟩ := cE b sh h.2 hf hl hs.1
    refine ⟨fun n st ho => ?_, rfl, hs.2.2.1, h4⟩
    simp only [uE]
    exact (h1 n _ ho).app ⟨ok_end h2 h3 (fun _ => lk_pre h.2 h.1), sure_of, ok_dot hs.2.2.1, hs.2.2.1, rfl⟩
  | .index b k, sh, h, hf, hl, hs => by
    simp only [fE, fitE, ellE, prE, allT_t, allT_append, Bool.and_eq_true] at h hf hl hs
    obtain ⟨h1, h2, h3, h4⟩ := cE b sh h.2.1 hf.1.2 hl.1 hs.1
    obtain ⟨g1, g2, g3, g4⟩ := cE k sh h.2.2 hf.2 hl.2 hs.2.2.1
    refine ⟨fun n st ho => ?_, rfl, sure_of, h4⟩
    simp only [uE]
    refine (h1 n _ ho).app ⟨ok_end h2 h3 (by simp), sure_of,
      (g1 n _ (ok_lb g4 (start_fk k) (fk_op h.2.2) fun s hk hb => ?_)).app ⟨ok_end g2 g3 (by simp), sure_of, rfl⟩⟩
    have := fk_bracket hb h.2.2 hk
    simp [this] at hf
  | .call b false as, sh, h, hf, hl, hs => by
    simp only [fE, fitE, ellE, prE, allT_t, allT_append, Bool.and_eq_true] at h hf hl hs
    obtain ⟨h1, h2, h3, h4⟩ := cE b sh h.2.1 hf.1 hl.1 hs.1
    have ih := fun hn => cEs as sh hn h.2.2.1 hf.2 hl.2 hs.2.2.1
    refine ⟨fun n st ho => ?_, rfl, sure_of, h4⟩
    simp only [uE]
    refine (h1 n _ ho).app ⟨ok_end h2 h3 (by simp), sure_of, ?_⟩
    by_cases hn : as = .nil
    · subst hn; simp only [uEs, List.nil_append]; exact ⟨ok_lp _, sure_of, rfl⟩
    · obtain ⟨g1, g2, g3, g4⟩ := ih hn
      exact (g1 n _ (ok_lp _)).app ⟨ok_end g2 g3 (by simp), sure_of, rfl⟩
  | .call b true as, sh, h, hf, hl, hs => by
    simp only [fE, fitE, ellE, prE, allT_t, allT_append, Bool.and_eq_true] at h hf hl hs
    obtain ⟨h1, h2, h3, h4⟩ := cE b sh h.2.1 hf.1 hl.1 hs.1
    obtain ⟨hn, hb⟩ := bare_start (h.2.2.2 trivial)
    obtain ⟨g1, g2, g3, g4⟩ := cEs as sh hn h.2.2.1 hf.2 hl.2 hs.2
    refine ⟨fun n st ho => ?_, g2, g3, h4⟩
    simp only [uE]
    exact (h1 n _ ho).app (g1 n _ (hb _ h2 h3))
  | .method b x false as, sh, h, hf, hl, hs => by
    simp only [fE, fitE, ellE, prE, allT_t, allT_append, Bool.and_eq_true] at h hf hl hs
    obtain ⟨h1, h2, h3, h4⟩ := cE b sh h.2.1 hf.1 hl.1 hs.1
    have ih := fun hn => cEs as sh hn h.2.2.1 hf.2 hl.2 hs.2.2.2.2.1
    refine ⟨fun n st ho => ?_, rfl, sure_of, h4⟩
    simp only [uE]
    refine (h1 n _ ho).app ⟨ok_end h2 h3 (by simp), sure_of, ok_colon hs.2.2.1, hs.2.2.1, ok_end rfl hs.2.2.1 (by simp), sure_of, ?_⟩
    by_cases hn : as = .nil
    · subst hn; simp only [uEs, List.nil_append]; exact ⟨ok_lp _, sure_of, rfl⟩
    · obtain ⟨g1, g2, g3, g4⟩ := ih hn
      exact (g1 n _ (ok_lp _)).app ⟨ok_end g2 g3 (by simp), sure_of, rfl⟩
  | .method b x true as, sh, h, hf, hl, hs => by
    simp only [fE, fitE, ellE, prE, allT_t, allT_append, Bool.and_eq_true] at h hf hl hs
    obtain ⟨h1, h2, h3, h4⟩ := cE b sh h.2.1 hf.1 hl.1 hs.1
    obtain ⟨hn, hb⟩ := bare_start (h.2.2.2 trivial)
    obtain ⟨g1, g2, g3, g4⟩ := cEs as sh hn h.2.2.1 hf.2 hl.2 hs.2.2.2
    refine ⟨fun n st ho => ?_, g2, g3, h4⟩
    simp only [uE]
    exact (h1 n _ ho).app ⟨ok_end h2 h3 (by simp), sure_of, ok_colon hs.2.2.1, hs.2.2.1, g1 n _ (hb _ rfl hs.2.2.1)⟩
  | .table its, sh, h, hf, hl, hs => by
    simp only [fE, fitE, ellE, prE, allT_t, allT_append, Bool.and_eq_true] at h hf hl hs
    have ih := cIts its sh h hf hl hs.2.1
    refine ⟨fun n st ho => ?_, rfl, sure_of, sure_of⟩
    simp only [uE]
    exact ⟨ho, sure_of, ih n _ ok_lc⟩
theorem cEs : ∀ (es : Exs) (sh : Bool), es ≠ .nil → fEs false .pico8 sh es → fitEs es = true → ellEs es = true → AllT Sure (prEs th sh es) →
    (∀ n st, Ok st (fks es) → Lk st (uEs ind n es) (.tight (lks es) false)) ∧ endK (lks es) = true ∧ Sure (lks es) ∧ Sure (fks es)
  | .nil, _, h, _, _, _, _ => absurd rfl h
  | .cons e .nil, sh, _, h, hf, hl, hs => by
    simp only [fEs, fitEs, ellEs, prEs, sepEs, allT_t, allT_append, allT_nil, Bool.and_eq_true] at h hf hl hs
    obtain ⟨h1, h2, h3, h4⟩ := cE e sh h.1 hf.1 hl.1 hs.1
    refine ⟨fun n st ho => ?_, h2, h3, h4⟩
    simp only [uEs, sepEs, plain, List.append_nil]
    exact h1 n st ho
  | .cons e (.cons f es), sh, _, h, hf, hl, hs => by
    rw [fEs] at h; rw [fitEs, Bool.and_eq_true] at hf; rw [ellEs, Bool.and_eq_true] at hl; rw [prEs] at hs
    simp only [sepEs, allT_t, allT_append, allT_nil] at hs
    obtain ⟨h1, h2, h3, h4⟩ := cE e sh h.1 hf.1 hl.1 hs.1
    obtain ⟨g1, g2, g3, g4⟩ := cEs (.cons f es) sh (by simp) h.2 hf.2 hl.2 hs.2.2
    refine ⟨fun n st ho => ?_, g2, g3, h4⟩
    rw [uEs]
    exact (h1 n st ho).app ⟨ok_end h2 h3 (by simp), sure_of, g1 n _ (ok_comma _)⟩
theorem cIts : ∀ (its : Its) (sh : Bool), fIts false .pico8 sh its → fitIts its = true → ellIts its = true → AllT Sure (prIts th sh its) →
    ∀ n st, (∀ k, Ok st k) → Lk st (uIts ind n its ++ [tk .rc]) (.tight .rc false)
  | .nil, sh, h, hf, hl, hs, n, st, ho => by
    simp only [uIts, List.nil_append]
    exact ⟨ho _, sure_of, rfl⟩
  | .pos e its, sh, h, hf, hl, hs, n, st, ho => by
    simp only [fIts, fitIts, ellIts, prIts, allT_t, allT_append, Bool.and_eq_true] at h hf hl hs
    obtain ⟨h1, h2, h3, h4⟩ := cE e sh h.1 hf.1 hl.1 hs.1
    have ih := cIts its sh h.2 hf.2 hl.2 hs.2.2
    simp only [uIts, List.append_assoc, List.cons_append]
    exact (h1 n _ (ho _)).app (lk_its h2 h3 ih)
  | .named x e its, sh, h, hf, hl, hs, n, st, ho => by
    simp only [fIts, fitIts, ellIts, prIts, allT_t, allT_append, Bool.and_eq_true] at h hf hl hs
    obtain ⟨h1, h2, h3, h4⟩ := cE e sh h.1 hf.1 hl.1 hs.2.2.1
    have ih := cIts its sh h.2 hf.2 hl.2 hs.2.2.2.2
    simp only [uIts, List.append_assoc, List.cons_append]
    exact ⟨ho _, hs.1, ok_end rfl hs.1 (by simp), sure_of, (h1 n _ (ok_sep rfl (start_fk e))).app (lk_its h2 h3 ih)⟩
  | .keyed k e its, sh, h, hf, hl, hs, n, st, ho => by
    simp only [fIts, fitIts, ellIts, prIts, allT_t, allT_append, Bool.and_eq_true] at h hf hl hs
    obtain ⟨g1, g2, g3, g4⟩ := cE k sh h.1 hf.1.1.2 hl.1.1 hs.2.1
    obtain ⟨h1, h2, h3, h4⟩ := cE e sh h.2.1 hf.1.2 hl.1.2 hs.2.2.2.2.1
    have ih := cIts its sh h.2.2 hf.2 hl.2 hs.2.2.2.2.2.2
    simp only [uIts, List.append_assoc, List.cons_append]
    refine ⟨ho _, sure_of, (g1 n _ (ok_lb g4 (start_fk k) (fk_op h.1) fun s hk hb => ?_)).app
      ⟨ok_end g2 g3 (by simp), sure_of, ok_end rfl sure_of (by simp), sure_of, (h1 n _ (ok_sep rfl (start_fk e))).app (lk_its h2 h3 ih)⟩⟩
    have := fk_bracket hb h.1 hk
    simp [this] at hf
theorem cS : ∀ (s : St) (sh c : Bool), fS false .pico8 sh c s → fitS s = true → ellS s = true → AllT Sure (prS th sh s) →
    ∀ n, ∃ st', Lk .clear (uS ind n s) st'
  | .do_ b, sh, c, h, hf, hl, hs, n => by
    simp only [fS, fitS, ellS, prS, allT_t, allT_append, Bool.and_eq_true] at h hf hl hs
    have ih := cB b sh true h hf hl hs.2.1
    simp only [uS]
    exact ⟨_, trivial, sure_of, lk_body hi ih lk_end⟩
  | .if_ i, sh, c, h, hf, hl, hs, n => by
    simp only [fS, fitS, ellS, prS, allT_t, allT_append, Bool.and_eq_true] at h hf hl hs
    obtain ⟨st', ih⟩ := cI i sh c true (.inl rfl) h hf hl hs.2 n .kIf rfl
    simp only [uS]
    exact ⟨_, trivial, sure_of, ih⟩
  | .while_ e b, sh, c, h, hf, hl, hs, n => by
    simp only [fS, fitS, ellS, prS, allT_t, allT_append, Bool.and_eq_true] at h hf hl hs
    obtain ⟨h1, h2, h3, h4⟩ := cE e sh h.1 hf.1 hl.1 hs.2.1
    have ih := cB b sh true h.2 hf.2 hl.2 hs.2.2.2.1
    simp only [uS]
    exact ⟨_, trivial, sure_of, (h1 n _ (ok_sep rfl (start_fk e))).app ⟨ok_end h2 h3 (by simp), sure_of, lk_body hi ih lk_end⟩⟩
  | .whileShort (.group e) b d, sh, c, h, hf, hl, hs, n => by
    simp only [fS, fE, fitS, fitE, ellS, ellE, prS, prE, allT_t, allT_append, Bool.and_eq_true] at h hf hl hs
    obtain ⟨h1, h2, h3, h4⟩ := cE e _ h.2.2.1 hf.1 hl.1 hs.2.1.2.1
    have ih := cB b _ d h.2.2.2.1 hf.2 hl.2 hs.2.2.1
    simp only [uS, uC]
    exact ⟨_, trivial, sure_of, (h1 n _ (ok_sep rfl (start_fk e))).app
      ⟨.inl rfl, sure_of, lk_body hi ih (us := [.word false .kEnd]) ⟨.inr rfl, sure_of, rfl⟩⟩⟩
  | .repeat_ b e, sh, c, h, hf, hl, hs, n => by
    simp only [fS, fitS, ellS, prS, allT_t, allT_append, Bool.and_eq_true] at h hf hl hs
    obtain ⟨h1, h2, h3, h4⟩ := cE e sh h.2 hf.2 hl.2 hs.2.2.2
    have ih := cB b sh true h.1 hf.1 hl.1 hs.2.1
    simp only [uS]
    exact ⟨_, trivial, sure_of, lk_body hi ih ⟨trivial, sure_of, h1 n _ (ok_sep rfl (start_fk e))⟩⟩
  | .fornum x a b s d, sh, c, h, hf, hl, hs, n => by
    simp only [fS, fitS, ellS, prS, allT_t, allT_append, Bool.and_eq_true] at h hf hl hs
    obtain ⟨h1, h2, h3, h4⟩ := cE a sh h.1 hf.1.1.1 hl.1.1.1 hs.2.2.2.1
    obtain ⟨g1, g2, g3, g4⟩ := cE b sh h.2.1 hf.1.1.2 hl.1.1.2 hs.2.2.2.2.2.1
    have ihs := fun hn => cEs s sh hn h.2.2.1 hf.1.2 hl.1.2 hs.2.2.2.2.2.2.2.1
    have ih := cB d sh true h.2.2.2.2 hf.2 hl.2 hs.2.2.2.2.2.2.2.2.2.1
    simp only [uS]
    exact ⟨_, trivial, sure_of, ok_sep rfl rfl, hs.2.1, ok_end rfl hs.2.1 (by simp), sure_of, (h1 n _ (ok_sep rfl (start_fk a))).app
      ⟨ok_end h2 h3 (by simp), sure_of, (g1 n _ (ok_comma _)).app (lk_sep g2 g3 ihs fun k hk hks =>
        ⟨ok_end hk hks (by simp), sure_of, lk_body hi ih lk_end⟩)⟩⟩
  | .forin xs es d, sh, c, h, hf, hl, hs, n => by
    simp only [fS, fitS, ellS, prS, allT_t, allT_append, Bool.and_eq_true] at h hf hl hs
    obtain ⟨y, hy, hx⟩ := lk_names xs (.tight .kFor false) h.1 (opn_sep rfl) hs.2.1
    obtain ⟨h1, h2, h3, h4⟩ := cEs es sh h.2.1 h.2.2.1 hf.1 hl.1 hs.2.2.2.1
    have ih := cB d sh true h.2.2.2 hf.2 hl.2 hs.2.2.2.2.2.1
    simp only [uS]
    refine ⟨_, trivial, sure_of, hx.app ⟨ok_end rfl hy (by simp), sure_of, (h1 n _ ?_).app ⟨ok_end h2 h3 (by simp), sure_of, lk_body hi ih lk_end⟩⟩⟩
    cases es with
    | nil => exact absurd rfl h.2.1
    | cons e es => exact ok_sep rfl (start_fk e)
  | .break_, sh, c, h, hf, hl, hs, n => by
    simp only [uS]
    exact ⟨_, trivial, sure_of, rfl⟩
  | .return_ .nil, sh, c, h, hf, hl, hs, n => by
    simp only [uS, uEs]
    exact ⟨_, trivial, sure_of, rfl⟩
  | .return_ (.cons e es), sh, c, h, hf, hl, hs, n => by
    simp only [fS, fitS, ellS, prS, allT_t] at h hf hl hs
    obtain ⟨h1, h2, h3, h4⟩ := cEs (.cons e es) sh (by simp) h hf hl hs.2
    simp only [uS]
    exact ⟨_, trivial, sure_of, h1 n _ (ok_sep rfl (start_fk e))⟩
  | .local_ xs .nil, sh, c, h, hf, hl, hs, n => by
    simp only [fS, fitS, ellS, prS, allT_t, allT_append, Bool.and_eq_true] at h hf hl hs
    obtain ⟨y, hy, hx⟩ := lk_locals xs (.tight .kLocal false) h.1 h.2.1 (opn_sep rfl) hs.2.1
    simp only [uS, uEs, eqEs, plain, List.append_nil]
    exact ⟨_, trivial, sure_of, hx⟩
  | .local_ xs (.cons e es), sh, c, h, hf, hl, hs, n => by
    simp only [fS, fitS, ellS, prS, allT_t, allT_append] at h hf hl hs
    obtain ⟨y, hy, hx⟩ := lk_locals xs (.tight .kLocal false) h.1 h.2.1 (opn_sep rfl) hs.2.1
    obtain ⟨h1, h2, h3, h4⟩ := cEs (.cons e es) sh (by simp) h.2.2 hf hl hs.2.2.2
    simp only [uS]
    exact ⟨_, trivial, sure_of, hx.app ⟨ok_end rfl hy (by simp), sure_of, h1 n _ (ok_sep rfl (start_fk e))⟩⟩
  | .localfn x ps b, sh, c, h, hf, hl, hs, n => by
    simp only [fS, fitS, ellS, prS, allT_t, allT_append, Bool.and_eq_true] at h hf hl hs
    have ih := cB b sh true h hf hl hs.2.2.2.2.2.1
    simp only [uS]
    exact ⟨_, trivial, sure_of, ok_sep rfl rfl, sure_of, ok_function _ (.inr rfl), hs.2.2.1, ok_end rfl hs.2.2.1 (by simp), sure_of,
      (lk_params ps _ (fun k _ => ok_lp k) hs.2.2.2.2.1).app (lk_body hi ih lk_end)⟩
  | .goto_ x, sh, c, h, hf, hl, hs, n => by
    simp only [prS, allT_t] at hs
    simp only [uS]
    exact ⟨_, trivial, sure_of, ok_sep rfl rfl, hs.2.1, rfl⟩
  | .label x, sh, c, h, hf, hl, hs, n => by
    simp only [prS, allT_t] at hs
    simp only [uS]
    exact ⟨_, trivial, sure_of, ok_dcolon _, hs.2.1, ok_end rfl hs.2.1 (by simp), sure_of, rfl⟩
  | .func f ps b, sh, c, h, hf, hl, hs, n => by
    simp only [fS, fitS, ellS, prS, allT_t, allT_append, Bool.and_eq_true] at h hf hl hs
    have ih := cB b sh true h hf hl hs.2.2.2.2.1
    obtain ⟨y, hy, hx⟩ := lk_name f hs.2.1
    simp only [uS]
    exact ⟨_, trivial, sure_of, hx.app ⟨ok_end rfl hy (by simp), sure_of,
      (lk_params ps _ (fun k _ => ok_lp k) hs.2.2.2.1).app (lk_body hi ih lk_end)⟩⟩
  | .assign ts .nil, sh, c, h, hf, hl, hs, n => by simp [fS] at h
  | .assign ts (.cons e es), sh, c, h, hf, hl, hs, n => by
    simp only [fS, fitS, ellS, prS, allT_t, allT_append] at h hf hl hs
    rw [Bool.and_eq_true] at hf hl
    obtain ⟨g1, g2, g3, g4⟩ := cEs ts sh h.2.1 h.2.2.2.1 hf.1 hl.1 hs.1
    obtain ⟨h1, h2, h3, h4⟩ := cEs (.cons e es) sh (by simp) h.2.2.2.2 hf.2 hl.2 hs.2.2
    simp only [uS]
    exact ⟨_, (g1 n .clear trivial).app ⟨ok_end g2 g3 (by simp), sure_of, h1 n _ (ok_sep rfl (start_fk e))⟩⟩
  | .opassign o t e, sh, c, h, hf, hl, hs, n => by
    simp only [fS, fitS, ellS, prS, allT_t, allT_append, Bool.and_eq_true] at h hf hl hs
    obtain ⟨g1, g2, g3, g4⟩ := cE t sh h.2.1 hf.1 hl.1 hs.1
    obtain ⟨h1, h2, h3, h4⟩ := cE e sh h.2.2 hf.2 hl.2 hs.2.2
    simp only [uS]
    exact ⟨_, (g1 n .clear trivial).app ⟨ok_end g2 g3 (by simp), hs.2.1, h1 n _ (ok_sep rfl (start_fk e))⟩⟩
  | .call e, sh, c, h, hf, hl, hs, n => by
    simp only [fS, fitS, ellS, prS] at h hf hl hs
    obtain ⟨h1, h2, h3, h4⟩ := cE e sh h.2 hf hl hs
    simp only [uS]
    exact ⟨_, h1 n _ trivial⟩
  | .print es, sh, c, h, hf, hl, hs, n => by
    simp only [fS, fitS, ellS, prS, allT_t, allT_append] at h hf hl hs
    obtain ⟨h1, h2, h3, h4⟩ := cEs es true h.1 h.2 hf hl hs.2.1
    simp only [uS]
    exact ⟨_, trivial, sure_of, h1 n _ (ok_quest _)⟩
  | .whileShort (.var _) b d, sh, c, h, hf, hl, hs, n | .whileShort (.num _) b d, sh, c, h, hf, hl, hs, n
  | .whileShort (.str _) b d, sh, c, h, hf, hl, hs, n | .whileShort (.cst _) b d, sh, c, h, hf, hl, hs, n
  | .whileShort .vararg b d, sh, c, h, hf, hl, hs, n | .whileShort (.func _ _) b d, sh, c, h, hf, hl, hs, n
  | .whileShort (.un _ _) b d, sh, c, h, hf, hl, hs, n | .whileShort (.bin _ _ _) b d, sh, c, h, hf, hl, hs, n
  | .whileShort (.member _ _) b d, sh, c, h, hf, hl, hs, n | .whileShort (.index _ _) b d, sh, c, h, hf, hl, hs, n
  | .whileShort (.call _ _ _) b d, sh, c, h, hf, hl, hs, n | .whileShort (.method _ _ _ _) b d, sh, c, h, hf, hl, hs, n
  | .whileShort (.table _) b d, sh, c, h, hf, hl, hs, n => by simp [fS, Tidy.isGroup] at h
theorem cI : ∀ (i : If) (sh c w : Bool), w = true ∨ Mini.isLong i = true → fI false .pico8 sh c i → fitI i = true → ellI i = true → AllT Sure (prI th sh i) →
    ∀ n k, sepK k = true → ∃ st', Lk (.tight k false) (uI ind n w i) st'
  | .long e b t, sh, c, w, hw, h, hf, hl, hs, n, k, hk => by
    simp only [fI, fitI, ellI, prI, allT_t, allT_append, Bool.and_eq_true] at h hf hl hs
    obtain ⟨h1, h2, h3, h4⟩ := cE e sh h.1 hf.1.1 hl.1.1 hs.1
    have ih := cB b sh true h.2.1 hf.1.2 hl.1.2 hs.2.2.1
    obtain ⟨st', it⟩ := cT t sh h.2.2.1 hf.2 hl.2 hs.2.2.2 n
    simp only [uI]
    exact ⟨_, (h1 n _ (ok_sep hk (start_fk e))).app ⟨ok_end h2 h3 (by simp), sure_of, lk_body hi ih it⟩⟩
  | .short (.group e) b d, sh, c, w, hw, h, hf, hl, hs, n, k, hk => by
    obtain rfl : w = true := by rcases hw with hw | hw; exact hw; cases hw
    simp only [fI, fE, fitI, fitE, ellI, ellE, prI, prE, allT_t, allT_append, Bool.and_eq_true] at h hf hl hs
    obtain ⟨h1, h2, h3, h4⟩ := cE e _ h.2.2.1 hf.1 hl.1 hs.1.2.1
    have ih := cB b _ d h.2.2.2.1 hf.2 hl.2 hs.2.1
    simp only [uI, uC, if_true, List.append_assoc]
    exact ⟨_, (h1 n _ (ok_sep hk (start_fk e))).app ⟨.inl rfl, sure_of, lk_body hi ih (us := [.word false .kEnd]) ⟨.inr rfl, sure_of, rfl⟩⟩⟩
  | .shortElse (.group e) b b' d, sh, c, w, hw, h, hf, hl, hs, n, k, hk => by
    obtain rfl : w = true := by rcases hw with hw | hw; exact hw; cases hw
    simp only [fI, fE, fitI, fitE, ellI, ellE, prI, prE, allT_t, allT_append, Bool.and_eq_true] at h hf hl hs
    obtain ⟨h1, h2, h3, h4⟩ := cE e _ h.2.2.1 hf.1.1 hl.1.1.2 hs.1.2.1
    have ih := cB b _ true h.2.2.2.1 hf.1.2 hl.1.2 hs.2.1
    have ih' := cB b' _ d h.2.2.2.2.1 hf.2 hl.2 hs.2.2.2.1
    simp only [uI, uC, if_true, List.append_assoc, uL_eq ind b' _ _ hl.1.1.1]
    exact ⟨_, (h1 n _ (ok_sep hk (start_fk e))).app ⟨.inl rfl, sure_of, lk_body hi ih
      ⟨trivial, sure_of, lk_body hi ih' (us := [.word false .kEnd]) ⟨.inr rfl, sure_of, rfl⟩⟩⟩⟩
  | .short (.var _) b d, sh, c, w, hw, h, hf, hl, hs, n, k, hk | .short (.num _) b d, sh, c, w, hw, h, hf, hl, hs, n, k, hk
  | .short (.str _) b d, sh, c, w, hw, h, hf, hl, hs, n, k, hk | .short (.cst _) b d, sh, c, w, hw, h, hf, hl, hs, n, k, hk
  | .short .vararg b d, sh, c, w, hw, h, hf, hl, hs, n, k, hk | .short (.func _ _) b d, sh, c, w, hw, h, hf, hl, hs, n, k, hk
  | .short (.un _ _) b d, sh, c, w, hw, h, hf, hl, hs, n, k, hk | .short (.bin _ _ _) b d, sh, c, w, hw, h, hf, hl, hs, n, k, hk
  | .short (.member _ _) b d, sh, c, w, hw, h, hf, hl, hs, n, k, hk | .short (.index _ _) b d, sh, c, w, hw, h, hf, hl, hs, n, k, hk
  | .short (.call _ _ _) b d, sh, c, w, hw, h, hf, hl, hs, n, k, hk | .short (.method _ _ _ _) b d, sh, c, w, hw, h, hf, hl, hs, n, k, hk
  | .short (.table _) b d, sh, c, w, hw, h, hf, hl, hs, n, k, hk => by simp [fI, Tidy.isGroup] at h
  | .shortElse (.var _) b _ d, sh, c, w, hw, h, hf, hl, hs, n, k, hk | .shortElse (.num _) b _ d, sh, c, w, hw, h, hf, hl, hs, n, k, hk
  | .shortElse (.str _) b _ d, sh, c, w, hw, h, hf, hl, hs, n, k, hk | .shortElse (.cst _) b _ d, sh, c, w, hw, h, hf, hl, hs, n, k, hk
  | .shortElse .vararg b _ d, sh, c, w, hw, h, hf, hl, hs, n, k, hk | .shortElse (.func _ _) b _ d, sh, c, w, hw, h, hf, hl, hs, n, k, hk
  | .shortElse (.un _ _) b _ d, sh, c, w, hw, h, hf, hl, hs, n, k, hk | .shortElse (.bin _ _ _) b _ d, sh, c, w, hw, h, hf, hl, hs, n, k, hk
  | .shortElse (.member _ _) b _ d, sh, c, w, hw, h, hf, hl, hs, n, k, hk | .shortElse (.index _ _) b _ d, sh, c, w, hw, h, hf, hl, hs, n, k, hk
  | .shortElse (.call _ _ _) b _ d, sh, c, w, hw, h, hf, hl, hs, n, k, hk | .shortElse (.method _ _ _ _) b _ d, sh, c, w, hw, h, hf, hl, hs, n, k, hk
  | .shortElse (.table _) b _ d, sh, c, w, hw, h, hf, hl, hs, n, k, hk => by simp [fI, Tidy.isGroup] at h
theorem cT : ∀ (t : Syntax.Tail) (sh : Bool), fT false .pico8 sh t → fitT t = true → ellT t = true → AllT Sure (prT th sh t) →
    ∀ n, ∃ st', Lk .clear (uT ind n t) st'
  | .end_, sh, h, hf, hl, hs, n => by
    simp only [uT]
    exact ⟨_, trivial, sure_of, rfl⟩
  | .else_ b, sh, h, hf, hl, hs, n => by
    simp only [fT, fitT, ellT, prT, allT_t, allT_append] at h hf hl hs
    have ih := cB b sh true h hf hl hs.2.1
    simp only [uT]
    exact ⟨_, trivial, sure_of, lk_body hi ih lk_end⟩
  | .elseif_ i, sh, h, hf, hl, hs, n => by
    simp only [fT, fitT, ellT, prT, allT_t, allT_append] at h hf hl hs
    obtain ⟨st', ih⟩ := cI i sh true false (.inr h.1) h.2 hf hl hs.2 n .kElseif rfl
    simp only [uT]
    exact ⟨_, trivial, sure_of, ih⟩
theorem cB : ∀ (b : Block) (sh c : Bool), fB false .pico8 sh c b → fitB b = true → ellB b = true → AllT Sure (prB th sh b) →
    ∀ n p, Lk .clear (uB ind n p b) .clear
  | .nil, sh, c, h, hf, hl, hs, n, p => by simp only [uB]; rfl
  | .semi b, sh, c, h, hf, hl, hs, n, p => by
    simp only [fB, fitB, ellB, prB, allT_t] at h hf hl hs
    simp only [uB]
    exact cB b sh c h hf hl hs.2 n _
  | .cons s b, sh, c, h, hf, hl, hs, n, p => by
    simp only [fB, fitB, ellB, prB, allT_append, Bool.and_eq_true] at h hf hl hs
    obtain ⟨st', ih⟩ := cS s sh c h.1 hf.1 hl.1 hs.1 n
    have ib := cB b sh c h.2.1 hf.2 hl.2 hs.2 n (some (isFn s))
    simp only [uB]
    have h1 : ∀ q : Bool, Lk .clear (if q then [newline] else []) .clear := by
      intro q; cases q
      · rfl
      · exact lk_newline rfl
    exact (h1 _).app (lk_indent hi (ih.app (lk_newline ((h1 _).app ib))))
end
end

end Verif.Unmin
