import Verif.LexLemmas
import Verif.Props.StrLit
/-
C30: text written with whitespace only where needed tokenizes to the same tokens.  C50: the token count.
-/
namespace Verif

/-- What a token must be before it is written: one the tokenizer found in its source, or (if modified or created) one that tokenizes to itself. -/
def GoodToken (p8 : Bool) (srcs : Nat → List Nat) (t : OTok) : Prop :=
  t.comment = false ∧
  if t.modified then lexAll p8 t.text = some [(t.kind, t.text)]
  else ∃ sp, lexSpans p8 0 (srcs t.src) = some sp ∧ ((t.kind, t.text), t.idx, t.endidx) ∈ sp

/-- A kept comment: it is skipped by the tokenizer, whatever comes after it. -/
def GoodComment (p8 : Bool) (t : OTok) : Prop := t.comment = true ∧ t.text ≠ [] ∧ ∀ r, lexStep p8 (t.text ++ r) = .skip r

/-- Two neighbours, if both unmodified and from the same source, are in source order, or at least tokenize apart; a comment is only put
behind something that its first character does not join. -/
def GoodPair (p8 : Bool) (a b : OTok) : Prop :=
  (a.comment = false → b.comment = true → ∃ c, b.text.head? = some c ∧ lexAll p8 (a.text ++ [c]) = some [(a.kind, a.text), (.punct, [c])]) ∧
  (a.comment = false → b.comment = false → a.modified = false → b.modified = false → a.src = b.src → b.idx < a.endidx →
    lexAll p8 (a.text ++ b.text) = some [(a.kind, a.text), (b.kind, b.text)])

/-- All neighbours in a list. -/
def Neighbours (P : OTok → OTok → Prop) : List OTok → Prop
  | a :: b :: r => P a b ∧ Neighbours P (b :: r)
  | _ => True

theorem goodToken_alone {p8 : Bool} {srcs : Nat → List Nat} {t : OTok} (h : GoodToken p8 srcs t) : lexStep p8 t.text = .tok t.kind t.text [] := by
  obtain ⟨_, h⟩ := h
  split at h
  · exact lexAll_single (a := (t.kind, t.text)) h
  · obtain ⟨sp, h1, h2⟩ := h
    obtain ⟨_, _, h3⟩ := lexSpans_mem _ rfl h1 h2
    have h4 := lexStep_append h3
    rw [h4] at h3
    simpa using (lexStep_local (r' := []) (Or.inr (Or.inl rfl)) h3).2

theorem good_alone {p8 : Bool} {srcs : Nat → List Nat} {t : OTok} (h : GoodToken p8 srcs t ∨ GoodComment p8 t) : StandsAlone p8 t := by
  unfold StandsAlone
  rcases h with h | h
  · rw [if_neg (by rw [h.1]; simp)]; exact goodToken_alone h
  · rw [if_pos h.1]; exact h.2

theorem neighbours_tail {P : OTok → OTok → Prop} {a : OTok} : ∀ {l : List OTok}, Neighbours P (a :: l) → Neighbours P l
  | [], _ => trivial
  | _ :: _, h => h.2

/-- What the pair check or the source says about two neighbours without whitespace between them. -/
theorem good_joint {p8 : Bool} {srcs : Nat → List Nat} {a b : OTok} (ha : GoodToken p8 srcs a ∨ GoodComment p8 a)
    (hb : GoodToken p8 srcs b ∨ GoodComment p8 b) (hp : GoodPair p8 a b)
    (h : needSpace p8 a b = false ∨ a.endidx ≥ b.idx ∧ a.src = b.src ∧ a.modified = false ∧ b.modified = false) : JointOk p8 a b := by
  cases hac : a.comment with
  | true => exact Or.inl hac
  | false =>
    have haT : GoodToken p8 srcs a := ha.resolve_right (by intro h; rw [h.1] at hac; cases hac)
    cases hbc : b.comment with
    | true =>
      obtain ⟨c, hc, hl⟩ := hp.1 hac hbc
      exact Or.inr ⟨[c], by rw [hc]; rfl, lexAll_pair (a := (a.kind, a.text)) (b := (.punct, [c])) hl⟩
    | false =>
      have hbT : GoodToken p8 srcs b := hb.resolve_right (by intro h; rw [h.1] at hbc; cases hbc)
      rcases h with h | ⟨h1, h2, h3, h4⟩
      · simp only [needSpace, hac, hbc, Bool.or_self, Bool.false_eq_true, if_false, bne_eq_false_iff_eq] at h
        exact jointOk_pair h
      · by_cases hlt : b.idx < a.endidx
        · exact jointOk_pair (hp.2 hac hbc h3 h4 h2 hlt)
        · have hidx : a.endidx = b.idx := by omega
          obtain ⟨_, ha'⟩ := haT
          obtain ⟨_, hb'⟩ := hbT
          rw [if_neg (by rw [h3]; simp)] at ha'
          rw [if_neg (by rw [h4]; simp)] at hb'
          obtain ⟨sp, ha1, ha2⟩ := ha'
          obtain ⟨sp', hb1, hb2⟩ := hb'
          obtain ⟨_, _, ha3⟩ := lexSpans_mem _ rfl ha1 ha2
          obtain ⟨_, _, hb3⟩ := lexSpans_mem _ rfl hb1 hb2
          have ha4 := lexStep_append ha3
          have hb4 := lexStep_append hb3
          rw [ha4] at ha3
          right
          refine ⟨_, ?_, ha3⟩
          simp only [Nat.sub_zero] at hb3 hb4 ⊢
          rw [hidx, h2, hb4]
          rw [hb4] at hb3
          exact head_append_ne (lexStep_local (Or.inl rfl) hb3).1

theorem sepsFrom_map {p8 ml : Bool} : ∀ {ts : List OTok} {a : OTok} {brk : Bool}, (sepsFrom p8 ml a brk ts).map (·.2) = ts
  | [], _, _ => rfl
  | t :: ts, a, brk => by simp only [sepsFrom, List.map_cons]; rw [sepsFrom_map]

theorem sepsFrom_ok {p8 ml : Bool} {srcs : Nat → List Nat} : ∀ {ts : List OTok} {a : OTok} {brk : Bool},
    (∀ t ∈ a :: ts, GoodToken p8 srcs t ∨ GoodComment p8 t) → Neighbours (GoodPair p8) (a :: ts) → SepsOk p8 a (sepsFrom p8 ml a brk ts)
  | [], _, _, _, _ => trivial
  | t :: ts, a, brk, hg, hn => by
    have ha := hg a (by simp)
    have ht := hg t (by simp)
    have hane : a.text ≠ [] := (good_alone ha).ne
    refine ⟨?_, ?_, good_alone ht, sepsFrom_ok (fun x hx => hg x (by simp at hx ⊢; exact Or.inr hx)) hn.2⟩
    · intro c hc
      unfold wspaceOut at hc
      split at hc
      · split at hc
        · simp only [List.mem_singleton] at hc; subst hc; rfl
        · split at hc
          · simp only [List.mem_singleton] at hc; subst hc; rfl
          · simp at hc
      · simp at hc
    · intro hw
      refine good_joint ha ht hn.1 ?_
      unfold wspaceOut at hw
      split at hw
      · split at hw
        · simp at hw
        · split at hw
          · simp at hw
          · next h => left; simpa using h
      · next h =>
        right
        simp only [Bool.and_eq_true, Bool.or_eq_true, decide_eq_true_eq, bne_iff_ne, Bool.not_eq_true', List.isEmpty_eq_false_iff, ne_eq] at h
        have h' : ¬ (((a.endidx < t.idx ∨ ¬ a.src = t.src) ∨ a.modified = true) ∨ t.modified = true) := fun hx => h ⟨hx, hane⟩
        simp only [not_or, Nat.not_lt, Classical.not_not, Bool.not_eq_true] at h'
        exact ⟨h'.1.1.1, h'.1.1.2, h'.1.2, h'.2⟩

/-- **C30** (tokens and kept comments).  The full statement is that the minified text of any tokens and kept comments tokenizes to the tokens.
Missing is the case of a kept comment directly behind a token that its first character joins, for which it is false
(`C30_comment_counterexample`).  For every sequence of good tokens and comments whose neighbours are in source order (or do not join),
the minified text tokenizes to exactly those tokens: nothing is lost, merged, split or changed in kind, for either language and both line
modes, wherever tokens were modified, created, removed or moved between files. -/
theorem C30_with_comments_partial (p8 ml : Bool) (srcs : Nat → List Nat) (ts : List OTok) (hg : ∀ t ∈ ts, GoodToken p8 srcs t ∨ GoodComment p8 t)
    (hn : Neighbours (GoodPair p8) ts) : lexAll p8 (outputTokens p8 ml ts) = some (OTok.tks ts) := by
  cases ts with
  | nil => simp [outputTokens, lexAll_nil, OTok.tks]
  | cons a ts =>
    rw [outputTokens, lexAll_seps (good_alone (hg a (by simp))) (sepsFrom_ok hg hn), sepsFrom_map]

/-- Two neighbouring tokens, if both unmodified and from the same source, are in source order, or at least tokenize apart. -/
def InOrder (p8 : Bool) (a b : OTok) : Prop :=
  a.modified = false → b.modified = false → a.src = b.src → b.idx < a.endidx →
    lexAll p8 (a.text ++ b.text) = some [(a.kind, a.text), (b.kind, b.text)]

theorem inOrder_good {p8 : Bool} {ts : List OTok} (hc : ∀ t ∈ ts, t.comment = false) (hn : Neighbours (InOrder p8) ts) :
    Neighbours (GoodPair p8) ts := by
  induction ts with
  | nil => trivial
  | cons a ts ih =>
    cases ts with
    | nil => trivial
    | cons b ts =>
      refine ⟨⟨fun _ h => ?_, fun _ _ => hn.1⟩, ih (fun t ht => hc t (by simp at ht ⊢; exact Or.inr ht)) hn.2⟩
      rw [hc b (by simp)] at h; cases h

/-- **C30.** For every sequence of tokens — each from its source, or modified or created and tokenizing to itself — the minified text tokenizes to
exactly those tokens: nothing is lost, merged, split or changed in kind, for either language and both line modes, wherever tokens were modified,
created, removed or moved between files. -/
theorem C30_minified (p8 ml : Bool) (srcs : Nat → List Nat) (ts : List OTok) (hg : ∀ t ∈ ts, GoodToken p8 srcs t)
    (hn : Neighbours (InOrder p8) ts) : lexAll p8 (outputTokens p8 ml ts) = some (ts.map fun t => (t.kind, t.text)) := by
  have hc : ∀ t ∈ ts, t.comment = false := fun t ht => (hg t ht).1
  rw [C30_with_comments_partial p8 ml srcs ts (fun t ht => Or.inl (hg t ht)) (inOrder_good hc hn)]
  congr 1
  unfold OTok.tks
  rw [List.filter_eq_self.mpr (fun t ht => by rw [hc t ht]; rfl)]
  rfl

/-! ### The original layout -/

theorem mem_takeWhile_sub {p : Nat → Bool} {c : Nat} {l : List Nat} (h : c ∈ l.takeWhile p) : c ∈ l := by
  have := List.takeWhile_append_dropWhile (p := p) (l := l)
  rw [← this]; exact List.mem_append_left _ h

theorem origSpace_wspace {cut : List Nat → List Nat × Bool} {text : List Nat} {ab nb : Bool}
    (h : ∀ c ∈ text, isPySpace c = true → isWspace c = true) : ∀ c ∈ origSpace cut text ab nb, isWspace c = true := by
  have key : ∀ (r : List Nat × Bool), (∀ c ∈ r.1, isWspace c = true) →
      ∀ c ∈ (let s := if !ab && r.1.contains 10 then r.1.takeWhile (· ≠ 10) ++ [32] else r.1
        if r.2 && !s.contains 10 then s ++ [10] else s), isWspace c = true := by
    intro r hr
    have hs : ∀ c ∈ (if !ab && r.1.contains 10 then r.1.takeWhile (· ≠ 10) ++ [32] else r.1), isWspace c = true := by
      split
      · intro c hc
        rcases List.mem_append.mp hc with hc | hc
        · exact hr c (mem_takeWhile_sub hc)
        · simp only [List.mem_singleton] at hc; subst hc; rfl
      · exact hr
    generalize (if !ab && r.1.contains 10 then r.1.takeWhile (· ≠ 10) ++ [32] else r.1) = s at hs ⊢
    simp only
    split
    · intro c hc
      rcases List.mem_append.mp hc with hc | hc
      · exact hs c hc
      · simp only [List.mem_singleton] at hc; subst hc; rfl
    · exact hs
  unfold origSpace
  refine key _ ?_
  split
  · intro c hc
    rcases List.mem_append.mp hc with hc | hc
    · rw [List.eq_of_mem_replicate hc]; rfl
    · rw [List.eq_of_mem_replicate hc]; rfl
  · next hsp =>
    simp only [Bool.and_eq_true, Bool.not_eq_true', List.isEmpty_eq_false_iff, not_and, Bool.not_eq_false] at hsp
    intro c hc
    have hne : text ≠ [] := by rintro rfl; simp at hc
    exact h c hc (List.all_eq_true.mp (hsp hne) c hc)

theorem origSeps_map {p8 : Bool} {cut : List Nat → List Nat × Bool} {gap : OTok → OTok → List Nat} :
    ∀ {ts : List OTok} {a : OTok} {brk : Bool}, (origSepsFrom p8 cut gap a brk ts).map (·.2) = ts
  | [], _, _ => rfl
  | t :: ts, a, brk => by simp only [origSepsFrom, List.map_cons]; rw [origSeps_map]

theorem origSeps_ok {p8 : Bool} {srcs : Nat → List Nat} {cut : List Nat → List Nat × Bool} {gap : OTok → OTok → List Nat}
    (hgap : ∀ a b, ∀ c ∈ gap a b, isPySpace c = true → isWspace c = true) : ∀ {ts : List OTok} {a : OTok} {brk : Bool},
    (∀ t ∈ a :: ts, GoodToken p8 srcs t ∨ GoodComment p8 t) → Neighbours (GoodPair p8) (a :: ts) →
    SepsOk p8 a (origSepsFrom p8 cut gap a brk ts)
  | [], _, _, _, _ => trivial
  | t :: ts, a, brk, hg, hn => by
    have ha := hg a (by simp)
    have ht := hg t (by simp)
    refine ⟨?_, ?_, good_alone ht, origSeps_ok hgap (fun x hx => hg x (by simp at hx ⊢; exact Or.inr hx)) hn.2⟩
    · intro c hc
      split at hc
      · simp only [List.mem_singleton] at hc; subst hc; rfl
      · exact origSpace_wspace (hgap a t) c hc
    · intro hw
      refine good_joint ha ht hn.1 (Or.inl ?_)
      split at hw
      · simp at hw
      · next h =>
        rw [hw] at h
        simpa using h

/-- **C30** (original layout).  Without whitespace minification — original whitespace, with what was removed between the tokens cut away — the
text also tokenizes to exactly the tokens, whatever is cut.  The gaps must not hold characters that Python but not PICO-8 takes for spaces. -/
theorem C30_original_layout (p8 : Bool) (srcs : Nat → List Nat) (cut : List Nat → List Nat × Bool) (gap : OTok → OTok → List Nat)
    (hgap : ∀ a b, ∀ c ∈ gap a b, isPySpace c = true → isWspace c = true) (w0 : List Nat) (hw0 : ∀ c ∈ w0, isWspace c = true)
    (a : OTok) (ts : List OTok) (hg : ∀ t ∈ a :: ts, GoodToken p8 srcs t ∨ GoodComment p8 t) (hn : Neighbours (GoodPair p8) (a :: ts)) :
    lexAll p8 (w0 ++ a.text ++ sepsText (origSepsFrom p8 cut gap a a.brk ts)) = some (OTok.tks (a :: ts)) := by
  rw [List.append_assoc, lexAll_space hw0, lexAll_seps (good_alone (hg a (by simp))) (origSeps_ok hgap hg hn), origSeps_map]

/-! ### Which tokens and comments are good -/

theorem lexAll_one {p8 : Bool} {k : TokKind} {t : List Nat} (h : lexStep p8 t = .tok k t []) : lexAll p8 t = some [(k, t)] := by
  have := lexAll_tok (t := t) (r := []) (by simpa using h)
  simpa [lexAll_nil] using this

/-- **C30.** A name the minifier may use tokenizes to itself, as an identifier. -/
theorem C30_identifier (p8 : Bool) (s : List Nat) (h : isIdentifier p8 s = true) : lexAll p8 s = some [(.ident, s)] := by
  apply lexAll_one
  unfold isIdentifier at h
  cases s with
  | nil => simp at h
  | cons c s =>
    simp only [Bool.and_eq_true, Bool.not_eq_true', List.all_eq_true] at h
    obtain ⟨⟨⟨_, h1⟩, h2⟩, h3⟩ := h
    have hc := h1 c (by simp)
    have hw : isWspace c = false := by
      cases hw : isWspace c with
      | false => rfl
      | true => rw [isIdentChar_wspace hw] at hc; cases hc
    have hd : isDigit c = false := by
      simp only [isDigitChar, Bool.or_eq_false_iff] at h2
      exact h2.1.1.1
    have h46 : c ≠ 46 := by rintro rfl; revert hc; cases p8 <;> decide
    have hcls : lexClass p8 c s.head? = .ident := by simp [lexClass, hw, hd, h46, hc]
    have htw : (c :: s).takeWhile (isIdentChar p8) = c :: s := by
      have := (takeWhile_len_iff (p := isIdentChar p8) (a := c :: s) (b := [])).mpr ⟨h1, by simp⟩
      rw [List.append_nil] at this
      have h4 := List.takeWhile_append_dropWhile (p := isIdentChar p8) (l := c :: s)
      have h5 : ((c :: s).dropWhile (isIdentChar p8)) = [] := by
        have := congrArg List.length h4
        rw [List.length_append] at this
        exact List.length_eq_zero_iff.mp (by omega)
      rw [h5, List.append_nil] at h4; exact h4
    simp only [lexStep, hcls, htw, h3, Bool.false_eq_true, if_false]
    simp [cutTok]

theorem lexClass_quote {p8 : Bool} {q : Nat} {h : Option Nat} (hq : q = 34 ∨ q = 39) : lexClass p8 q h = .str := by
  have e : ∀ p8, (isWspace 34 = false ∧ isDigit 34 = false ∧ isIdentChar p8 34 = false) ∧ (isWspace 39 = false ∧ isDigit 39 = false ∧ isIdentChar p8 39 = false) := by decide
  rcases hq with rfl | rfl <;> simp [lexClass, e p8]

/-- **C30.** A quoted string literal the minifier writes tokenizes to itself. -/
theorem C30_quoted_string {isDig : Nat → Bool} (hd : AsciiDig isDig) (p8 useCtrl : Bool) {quote : Option Nat}
    (hq : ∀ q, quote = some q → q = 34 ∨ q = 39) (v : List Nat) :
    lexAll p8 (formatQuoted isDig useCtrl quote v) = some [(.string, formatQuoted isDig useCtrl quote v)] := by
  apply lexAll_one
  unfold formatQuoted
  simp only
  generalize hq' : quote.getD (if v.count 34 ≤ v.count 39 then 34 else 39) = q
  have hqq : q = 34 ∨ q = 39 := by
    rw [← hq']
    cases quote with
    | none => simp only [Option.getD_none]; split <;> simp
    | some x => exact hq x rfl
  have hs : scanString q (litParts isDig useCtrl q v ++ [q]) = some [] := scanString_litParts hd hqq [] v
  simp only [lexStep, lexClass_quote hqq, hs]
  simp only [cutTok, List.length_nil, Nat.sub_zero, List.take_length, List.drop_length]

/-- **C30.** A long bracket string literal the minifier writes tokenizes to itself, unless the string ends with the start of the closing
bracket (see C54). -/
theorem C30_long_string (p8 : Bool) (v : List Nat) (hv : ¬ (93 :: List.replicate (longEqs v) 61) <:+ v) :
    lexAll p8 (formatLong v) = some [(.string, formatLong v)] := by
  apply lexAll_one
  obtain ⟨body, hb⟩ := (C54_long_token_partial v []).mpr hv
  rw [List.append_nil] at hb
  have hl : ∃ r, formatLong v = 91 :: r ∧ (r.head? = some 61 ∨ r.head? = some 91) := by
    refine ⟨_, rfl, ?_⟩
    cases longEqs v with
    | zero => right; rfl
    | succ n => left; simp [List.replicate_succ]
  obtain ⟨r, hr, hh⟩ := hl
  have e : ∀ p8, isWspace 91 = false ∧ isDigit 91 = false ∧ isIdentChar p8 91 = false := by decide
  have hcls : lexClass p8 91 r.head? = .long := by
    rcases hh with hh | hh <;> simp [lexClass, e p8, hh]
  rw [hr] at hb ⊢
  simp only [lexStep, hcls, hb]
  simp [cutTok]

theorem lexClass_minus {p8 : Bool} : lexClass p8 45 (some 45) = .comment := by cases p8 <;> decide

/-- **C30.** A block comment is skipped exactly, whatever is written after it. -/
theorem C30_block_comment (p8 : Bool) (n : Nat) (body : List Nat) (hb : ¬ closer n <:+: body ++ (closer n).dropLast) (r : List Nat) :
    lexStep p8 ((45 :: 45 :: 91 :: (List.replicate n 61 ++ 91 :: (body ++ closer n))) ++ r) = .skip r := by
  have hs : scanLong (91 :: (List.replicate n 61 ++ 91 :: (body ++ closer n)) ++ r) = some (body, r) := by
    unfold scanLong
    simp only [List.cons_append, List.append_assoc]
    rw [takeWhile_replicate61]
    simp only [List.length_replicate]
    rw [List.drop_left' (by simp)]
    have := splitAt_first (t := r) (closer_ne n) hb
    simpa using this
  have ho : longOpens (91 :: (List.replicate n 61 ++ 91 :: (body ++ closer n)) ++ r) = true := by
    unfold longOpens
    simp only [List.cons_append, List.append_assoc, List.head?_cons, List.drop_succ_cons, List.drop_zero]
    rw [List.dropWhile_append_of_pos (by intro a ha; rw [List.eq_of_mem_replicate ha]; rfl)]
    simp
  simp only [List.cons_append, lexStep, List.head?_cons, lexClass_minus, List.drop_succ_cons, List.drop_zero, lexComment]
  simp only [List.cons_append] at hs ho
  rw [ho, hs]; rfl

/-- **C30.** A line comment with its newline is skipped exactly, whatever is written after it. -/
theorem C30_line_comment (p8 : Bool) (body : List Nat) (hb : 10 ∉ body) (hl : longOpens (body ++ [10]) = false) (r : List Nat) :
    lexStep p8 ((45 :: 45 :: (body ++ [10])) ++ r) = .skip r := by
  have ho : longOpens (body ++ 10 :: r) = false := by
    cases body with
    | nil => rfl
    | cons c b =>
      simp only [longOpens, List.cons_append, List.head?_cons, List.drop_succ_cons, List.drop_zero] at hl ⊢
      have : ∀ {b : List Nat}, ((b ++ [10]).dropWhile (· == 61)).head? = ((b ++ 10 :: r).dropWhile (· == 61)).head? := by
        intro b
        induction b with
        | nil => simp
        | cons x b ih =>
          simp only [List.cons_append, List.dropWhile_cons]
          split
          · exact ih
          · rfl
      rw [this] at hl; exact hl
  have ha : afterLine (body ++ 10 :: r) = r := by
    unfold afterLine
    rw [List.dropWhile_append_of_pos (by intro a ha; simp; rintro rfl; exact hb ha)]
    simp
  simp only [List.cons_append, List.append_assoc, List.nil_append, lexStep, List.head?_cons, lexClass_minus, List.drop_succ_cons, List.drop_zero, lexComment]
  rw [ho, ha]; rfl

/-- **C30.** The one case in which the minifier moves a token before one that stood earlier in the same source — the targets of merged
assignments, before their `=` — is harmless: an identifier or `]` does not join an `=`. -/
theorem C30_reordered (p8 : Bool) (a : OTok) (ha : lexAll p8 a.text = some [(a.kind, a.text)]) (hk : a.kind = .ident ∨ a.text = [93]) :
    lexAll p8 (a.text ++ [61]) = some [(a.kind, a.text), (.punct, [61])] := by
  have h1 := lexAll_single (a := (a.kind, a.text)) ha
  have heq : lexAll p8 [61] = some [(.punct, [61])] := lexAll_one (by cases p8 <;> decide)
  have hs : lexStep p8 (a.text ++ [61]) = .tok a.kind a.text [61] := by
    rcases hk with hk | hk
    · -- an identifier is cut off at the first character that is not one of a name
      cases hat : a.text with
      | nil => rw [hat] at h1; cases h1
      | cons c t =>
        rw [hat, hk] at h1
        simp only [lexStep] at h1
        cases hcl : lexClass p8 c t.head? <;> rw [hcl] at h1 <;> simp only at h1
        · cases h1
        · simp [cutTok] at h1
        · have hid := lexClass_ident hcl
          unfold cutTok at h1
          simp only [LexStep.tok.injEq] at h1
          obtain ⟨g1, g2, g3⟩ := h1
          have hw : (c :: t).takeWhile (isIdentChar p8) = c :: t := by
            have h4 := List.takeWhile_append_dropWhile (p := isIdentChar p8) (l := c :: t)
            rw [lex_drop_takeWhile] at g3
            rw [g3, List.append_nil] at h4; exact h4
          have hall : ∀ x ∈ c :: t, isIdentChar p8 x = true := fun x hx => lex_mem_takeWhile (by rw [hw]; exact hx)
          have h61 : isIdentChar p8 61 = false := by cases p8 <;> decide
          have hw2 : (c :: (t ++ [61])).takeWhile (isIdentChar p8) = c :: t := by
            rw [← List.cons_append, List.takeWhile_append_of_pos hall]; simp [h61]
          have hcl2 : lexClass p8 c (t ++ [61]).head? = .ident := by
            cases t with
            | cons => simpa using hcl
            | nil =>
              have hws : isWspace c = false := by
                cases hw : isWspace c with
                | false => rfl
                | true => rw [isIdentChar_wspace hw] at hid; cases hid
              have hdg : isDigit c = false := by
                cases hd : isDigit c with
                | false => rfl
                | true => simp [lexClass, hws, hd] at hcl
              have h46 : c ≠ 46 := by rintro rfl; revert hid; cases p8 <;> decide
              simp [lexClass, hws, hdg, h46, hid]
          rw [hw] at g1
          simp only [List.cons_append, lexStep, hcl2, hw2, g1, hk]
          simp [cutTok]
        · split at h1
          · simp [cutTok] at h1
          · cases h1
        · split at h1
          · simp [cutTok] at h1
          · cases h1
        · unfold lexComment at h1
          split at h1
          · split at h1 <;> cases h1
          · cases h1
        · cases h1
        · simp [cutTok] at h1
        · simp [cutTok] at h1
        · cases h1
    · rw [hk] at h1 ⊢
      have : a.kind = .punct := by
        have : lexStep p8 [93] = .tok .punct [93] [] := by cases p8 <;> decide
        rw [this] at h1; simp only [LexStep.tok.injEq] at h1; exact h1.1.symm
      rw [this]
      cases p8 <;> decide
  rw [lexAll_tok hs, heq]; rfl

/-! ### Where it goes wrong -/

/-- `a - --[[$keep:x]] b`: the three tokens and the kept comment. -/
def keptExample : List OTok :=
  [{ kind := .ident, text := [97], src := 0, idx := 0, endidx := 1, vline := 0, modified := false, brk := false },
   { kind := .punct, text := [45], src := 0, idx := 2, endidx := 3, vline := 0, modified := false, brk := false },
   { kind := .punct, text := [45, 45, 91, 91, 120, 93, 93], src := 0, idx := 4, endidx := 17, vline := 0, modified := false, brk := false, comment := true },
   { kind := .ident, text := [98], src := 0, idx := 18, endidx := 19, vline := 0, modified := false, brk := false }]

/-- **C30** fails for a kept comment behind a minus sign: no space is put between them, so that a line comment comes out (`a---[[x]]b`) and the
rest of the line is lost. -/
theorem C30_comment_counterexample :
    outputTokens true true keptExample = [97, 45, 45, 45, 91, 91, 120, 93, 93, 98] ∧
    lexAll true (outputTokens true true keptExample) = some [(.ident, [97])] ∧
    OTok.tks keptExample = [(.ident, [97]), (.punct, [45]), (.ident, [98])] := by
  decide +kernel

/-! ### C50 -/

/-- The token stands for nothing in the count. -/
def FreeToken (t : CTok) : Prop :=
  t.kind = none ∨ t.text ∈ [[44], [46], [58], [59], [58, 58], [41], [93], [125], [101, 110, 100], [108, 111, 99, 97, 108]]

/-- Token `i` is the sign of a number: it is `-` or `~`, touches a number after it, and there is a token before it that does not end an operand. -/
def SignToken (ts : List CTok) (i : Nat) : Prop :=
  ∃ t n p, ts[i]? = some t ∧ ts[i + 1]? = some n ∧ 0 < i ∧ ts[i - 1]? = some p ∧ (t.text = [45] ∨ t.text = [126]) ∧
    n.kind = some .number ∧ t.endidx = n.idx ∧ p.kind ≠ some .number ∧ p.kind ≠ some .string ∧ p.kind ≠ some .ident ∧
    p.text ∉ [[41], [93], [125], [59], [101, 110, 100]]

/-- Token `i` is counted. -/
def Counted (ts : List CTok) (i : Nat) : Prop := ∃ t, ts[i]? = some t ∧ ¬ FreeToken t ∧ ¬ SignToken ts i

theorem free_iff {t : CTok} : (t.kind == none || freeTexts.contains t.text) = true ↔ FreeToken t := by
  simp [FreeToken, freeTexts]

theorem sign_iff {pre r : List CTok} {t : CTok} : signFree pre.getLast? t r.head? = true ↔ SignToken (pre ++ t :: r) pre.length := by
  have h0 : (pre ++ t :: r)[pre.length]? = some t := by simp
  have h1 : (pre ++ t :: r)[pre.length + 1]? = r.head? := by
    rw [List.getElem?_append_right (by omega), show pre.length + 1 - pre.length = 1 from by omega]
    cases r <;> simp
  have h2 : 0 < pre.length → (pre ++ t :: r)[pre.length - 1]? = pre.getLast? := by
    intro h
    rw [List.getElem?_append_left (by omega), List.getLast?_eq_getElem?]
  unfold signFree SignToken
  constructor
  · intro h
    simp only [Bool.and_eq_true, Bool.or_eq_true, beq_iff_eq] at h
    obtain ⟨⟨h3, h4⟩, h5⟩ := h
    split at h4
    · next n hn =>
      split at h5
      · next p hp =>
        have hpos : 0 < pre.length := by
          cases pre with
          | nil => cases hp
          | cons => simp
        refine ⟨t, n, p, h0, by rw [h1, hn], hpos, by rw [h2 hpos, hp], h3, ?_⟩
        simp only [Bool.and_eq_true, beq_iff_eq, Bool.not_eq_true', Bool.or_eq_false_iff, beq_eq_false_iff_ne, List.contains_eq_mem, decide_eq_false_iff_not] at h4 h5
        exact ⟨h4.1, h4.2, h5.1.1.1, h5.1.1.2, h5.1.2, h5.2⟩
      · cases h5
    · cases h4
  · rintro ⟨t', n, p, g0, g1, hpos, g2, g3, g4, g5, g6, g7, g8, g9⟩
    rw [h0] at g0; simp only [Option.some.injEq] at g0; subst g0
    rw [h1] at g1
    rw [h2 hpos] at g2
    rw [g1, g2]
    simp only [Bool.and_eq_true, Bool.or_eq_true, beq_iff_eq, Bool.not_eq_true', Bool.or_eq_false_iff, beq_eq_false_iff_ne, List.contains_eq_mem, decide_eq_false_iff_not]
    exact ⟨⟨g3, g4, g5⟩, ⟨⟨g6, g7⟩, g8⟩, g9⟩

theorem count_from : ∀ (r pre : List CTok), ∃ is : List Nat, is.Nodup ∧
    (∀ i, i ∈ is ↔ pre.length ≤ i ∧ i < pre.length + (r.takeWhile (!·.stop)).length ∧ Counted (pre ++ r) i) ∧ countTokens pre.getLast? r = is.length
  | [], pre => ⟨[], by simp, by intro i; simp; omega, rfl⟩
  | t :: r, pre => by
    simp only [countTokens]
    cases hst : t.stop with
    | true => exact ⟨[], by simp, by intro i; simp [hst]; omega, rfl⟩
    | false =>
      obtain ⟨is, hnd, hmem, hc⟩ := count_from r (pre ++ [t])
      have hl : (pre ++ [t]).getLast? = some t := by simp
      rw [hl] at hc
      simp only [List.append_assoc, List.singleton_append, List.length_append, List.length_cons, List.length_nil] at hmem
      have hsp : ∀ i, (pre.length ≤ i ∧ i < pre.length + ((t :: r).takeWhile (!·.stop)).length ∧ Counted (pre ++ t :: r) i) ↔
          (i = pre.length ∧ Counted (pre ++ t :: r) pre.length) ∨ i ∈ is := by
        intro i
        rw [hmem]
        simp only [List.takeWhile_cons, hst, Bool.not_false, if_true, List.length_cons]
        constructor
        · rintro ⟨a, b, c⟩
          by_cases h : i = pre.length
          · exact Or.inl ⟨h, h ▸ c⟩
          · exact Or.inr ⟨by omega, by omega, c⟩
        · rintro (⟨rfl, c⟩ | ⟨a, b, c⟩)
          · exact ⟨Nat.le_refl _, by omega, c⟩
          · exact ⟨by omega, by omega, c⟩
      have hcount : Counted (pre ++ t :: r) pre.length ↔ ¬ FreeToken t ∧ ¬ SignToken (pre ++ t :: r) pre.length := by
        unfold Counted
        constructor
        · rintro ⟨t', h, h1⟩
          rw [show (pre ++ t :: r)[pre.length]? = some t by simp] at h
          simp only [Option.some.injEq] at h; subst h; exact h1
        · intro h; exact ⟨t, by simp, h⟩
      have hnot : pre.length ∉ is := by rw [hmem]; omega
      simp only [Bool.false_eq_true, if_false]
      by_cases hf : FreeToken t
      · rw [if_pos (free_iff.mpr hf)]
        refine ⟨is, hnd, ?_, by omega⟩
        intro i; rw [hsp, hcount]; simp [hf]
      · rw [if_neg (by rw [free_iff]; exact hf)]
        by_cases hsg : SignToken (pre ++ t :: r) pre.length
        · rw [if_pos (sign_iff.mpr hsg)]
          refine ⟨is, hnd, ?_, by omega⟩
          intro i; rw [hsp, hcount]; simp [hsg]
        · rw [if_neg (by rw [sign_iff]; exact hsg)]
          refine ⟨pre.length :: is, by simp [hnd, hnot], ?_, by simp; omega⟩
          intro i; rw [hsp, hcount]; simp [hf, hsg]

/-- **C50.** The token count is the number of tokens, up to a stop hint, that are neither free nor the sign of a number. -/
theorem C50_count (ts : List CTok) : ∃ is : List Nat, is.Nodup ∧
    (∀ i, i ∈ is ↔ i < (ts.takeWhile (!·.stop)).length ∧ Counted ts i) ∧ countTokens none ts = is.length := by
  obtain ⟨is, h1, h2, h3⟩ := count_from ts []
  refine ⟨is, h1, ?_, h3⟩
  intro i; rw [h2]; simp

/-- The same tokens; where `a` has a sign touching the next token, so has `b`. -/
def SameTokens : List CTok → List CTok → Prop
  | [], [] => True
  | s :: a, t :: b => s.kind = t.kind ∧ s.text = t.text ∧ s.stop = t.stop ∧
      (∀ n m, a.head? = some n → b.head? = some m → s.endidx = n.idx → t.endidx = m.idx) ∧ SameTokens a b
  | _, _ => False

theorem count_le : ∀ {a b : List CTok} {p q : Option CTok}, SameTokens a b → p.map (fun t => (t.kind, t.text)) = q.map (fun t => (t.kind, t.text)) →
    countTokens q b ≤ countTokens p a
  | [], [], _, _, _, _ => Nat.le_refl _
  | s :: a, t :: b, p, q, ⟨h1, h2, h3, h4, h5⟩, hpq => by
    have ih := count_le (p := some s) (q := some t) h5 (by simp [h1, h2])
    simp only [countTokens, ← h1, ← h2, ← h3]
    have hsf : signFree p s a.head? = true → signFree q t b.head? = true := by
      unfold signFree
      simp only [Bool.and_eq_true, ← h2]
      rintro ⟨⟨g1, g2⟩, g3⟩
      refine ⟨⟨g1, ?_⟩, ?_⟩
      · cases a with
        | nil => simp at g2
        | cons n a =>
          cases b with
          | nil => exact absurd h5 (by simp [SameTokens])
          | cons m b =>
            simp only [List.head?_cons, Bool.and_eq_true, beq_iff_eq] at g2 ⊢
            exact ⟨h5.1 ▸ g2.1, h4 n m rfl rfl g2.2⟩
      · cases p with
        | none => simp at g3
        | some p =>
          cases q with
          | none => simp at hpq
          | some q =>
            simp only [Option.map_some, Option.some.injEq, Prod.mk.injEq] at hpq
            simp only [← hpq.1, ← hpq.2]
            exact g3
    split
    · exact Nat.le_refl _
    · split
      · omega
      · split
        · next g =>
          split
          · omega
          · omega
        · next g =>
          rw [if_neg (fun h => g (hsf h))]
          omega

/-- **C50.** The count depends only on the tokens and on which of them touch; positions, line breaks and comments do not matter. -/
theorem C50_layout (a b : List CTok) (h1 : SameTokens a b) (h2 : SameTokens b a) : countTokens none a = countTokens none b :=
  Nat.le_antisymm (count_le h2 rfl) (count_le h1 rfl)

/-- **C50.** Removing whitespace never raises the count: it can only make signs touch their numbers. -/
theorem C50_whitespace_removal (a b : List CTok) (h : SameTokens a b) : countTokens none b ≤ countTokens none a := count_le h rfl

/-! Cases meeting the hypotheses. -/

/-- `x=1 --...` made into `yy=1else` and so on: a modified name, a number before a keyword, a token from another file. -/
def sampleTokens : List OTok :=
  [{ kind := .ident, text := [121, 121], src := 0, idx := 0, endidx := 1, vline := 0, modified := true, brk := false },
   { kind := .punct, text := [61], src := 0, idx := 1, endidx := 2, vline := 0, modified := false, brk := false },
   { kind := .number, text := [49], src := 0, idx := 2, endidx := 3, vline := 0, modified := false, brk := false },
   { kind := .punct, text := [45, 45, 91, 91, 120, 93, 93], src := 0, idx := 4, endidx := 17, vline := 0, modified := false, brk := false, comment := true },
   { kind := .ident, text := [120], src := 1, idx := 0, endidx := 1, vline := 0, modified := false, brk := true }]
def sampleSources (i : Nat) : List Nat := if i = 0 then [120, 61, 49, 32, 45, 45] else [120, 61, 49]
example : outputTokens true true sampleTokens = [121, 121, 61, 49, 45, 45, 91, 91, 120, 93, 93, 10, 120] := by decide +kernel
example : ∀ t ∈ sampleTokens, GoodToken true sampleSources t ∨ GoodComment true t := by
  intro t ht
  simp only [sampleTokens, List.mem_cons, List.not_mem_nil, or_false] at ht
  rcases ht with rfl | rfl | rfl | rfl | rfl
  · exact Or.inl ⟨rfl, by decide +kernel⟩
  · exact Or.inl ⟨rfl, [((.ident, [120]), 0, 1), ((.punct, [61]), 1, 2), ((.number, [49]), 2, 3)], by decide +kernel, by decide⟩
  · exact Or.inl ⟨rfl, [((.ident, [120]), 0, 1), ((.punct, [61]), 1, 2), ((.number, [49]), 2, 3)], by decide +kernel, by decide⟩
  · exact Or.inr ⟨rfl, by decide, fun r => C30_block_comment true 0 [120] (by decide) r⟩
  · exact Or.inl ⟨rfl, [((.ident, [120]), 0, 1), ((.punct, [61]), 1, 2), ((.number, [49]), 2, 3)], by decide +kernel, by decide⟩
example : Neighbours (GoodPair true) sampleTokens := by
  refine ⟨⟨fun _ h => (by cases h), fun _ _ h => (by cases h)⟩, ⟨fun _ h => (by cases h), fun _ _ _ _ _ h => (by revert h; decide)⟩,
    ⟨fun _ _ => ⟨45, rfl, by decide +kernel⟩, fun _ h => (by cases h)⟩, ⟨fun h => (by cases h), fun h => (by cases h)⟩, trivial⟩
/-- A space is put where two tokens would join: `1` and `x1`, `a` and `b`, `.` and `..`, but not `a` and `(`. -/
example : [([49], [46, 46]), ([97], [98]), ([46], [46, 46]), ([45], [45]), ([97], [40]), ([40], [45])].map
    (fun x : List Nat × List Nat => (lexAll true (x.1 ++ x.2)).map (·.map (·.2))) =
    [some [[49, 46, 46]], some [[97, 98]], some [[46, 46, 46]], some [], some [[97], [40]], some [[40], [45]]] := by decide +kernel
/-- `x=-5`: the minus sign is free if it touches the 5 and costs one otherwise. -/
example : (countTokens none [⟨some .ident, [120], 0, 1, false⟩, ⟨some .punct, [61], 1, 2, false⟩, ⟨some .punct, [45], 2, 3, false⟩, ⟨some .number, [53], 3, 4, false⟩],
    countTokens none [⟨some .ident, [120], 0, 1, false⟩, ⟨some .punct, [61], 1, 2, false⟩, ⟨some .punct, [45], 2, 3, false⟩, ⟨some .number, [53], 4, 5, false⟩]) = (3, 4) := by decide
example : isIdentifier true [97, 49] = true := by decide
example : longOpens ([97] ++ [10]) = false := by decide

end Verif
