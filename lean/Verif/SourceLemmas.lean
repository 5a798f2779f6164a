import Verif.Source
import Mathlib.Tactic.Tauto
/-
Lines of tokens: how the tokenizer reads back what is written, and what it says about each token of a source.
-/
namespace Verif.Mini
open Syntax
open Paren (Op Lang)

/-! ### Reading back -/

theorem lexLines_nil {p8 : Bool} {n : Nat} : lexLines p8 n [] = some [] := by rw [lexLines]; simp

theorem lexLines_tok {p8 : Bool} {n : Nat} {t r : List Nat} {k : TokKind} (h : lexStep p8 (t ++ r) = .tok k t r) :
    lexLines p8 n (t ++ r) = (lexLines p8 n r).map (((k, t), n) :: ·) := by
  have ht : t ≠ [] := (lexStep_local (Or.inl rfl) h).1
  rw [lexLines, if_neg (by simp [ht]), h]
  simp only
  rw [if_pos (by have := List.length_pos_iff.mpr ht; simp only [List.length_append]; omega)]

theorem lexLines_space {p8 : Bool} : ∀ {w r : List Nat} {n : Nat}, (∀ c ∈ w, isWspace c = true) →
    lexLines p8 n (w ++ r) = lexLines p8 (n + w.count 10) r
  | [], r, n, _ => by simp
  | c :: w, r, n, h => by
    have hc : isWspace c = true := h c (by simp)
    have hcls : lexClass p8 c (w ++ r).head? = .space := by simp [lexClass, hc]
    rw [List.cons_append, lexLines, if_neg (by simp)]
    simp only [lexStep, hcls, skipLines]
    rw [if_pos (by simp), lexLines_space (fun x hx => h x (by simp [hx])), List.count_cons]
    congr 1
    by_cases h10 : c = 10 <;> simp [h10] <;> omega

/-- The lines that the separators make. -/
def lnSeps (n : Nat) : List (List Nat × OTok) → List (Tk × Nat)
  | [] => []
  | (w, t) :: r => (t.tk, n + w.count 10) :: lnSeps (n + w.count 10) r

theorem lexLines_seps {p8 : Bool} : ∀ {l : List (List Nat × OTok)} {a : OTok} {n : Nat}, StandsAlone p8 a → SepsOk p8 a l → a.comment = false →
    (∀ p ∈ l, p.2.comment = false) → lexLines p8 n (a.text ++ sepsText l) = some ((a.tk, n) :: lnSeps n l)
  | [], a, n, ha, _, hc, _ => by
    have ha' : lexStep p8 (a.text ++ []) = .tok a.kind a.text [] := by simpa [StandsAlone, hc] using ha
    rw [sepsText, lexLines_tok ha', lexLines_nil]; rfl
  | (w, t) :: l, a, n, ha, ⟨hw, hj, ht, hl⟩, hc, hcs => by
    have ih := lexLines_seps (n := n + w.count 10) ht hl (hcs (w, t) (by simp)) (fun p hp => hcs p (by simp [hp]))
    have htne := ht.ne
    simp only [sepsText, List.append_assoc]
    rw [lexLines_tok, lexLines_space hw, ih]
    · rfl
    · cases w with
      | nil =>
        rcases hj rfl with h | ⟨r, hr, hs⟩
        · rw [hc] at h; cases h
        · refine (lexStep_local (Or.inl ?_) hs).2
          rw [hr, List.nil_append, head_append_ne htne]
      | cons c w =>
        have ha' : lexStep p8 a.text = .tok a.kind a.text [] := by simpa [StandsAlone, hc] using ha
        exact (lexStep_local (r := []) (Or.inr (Or.inr ⟨c, hw c (by simp), rfl⟩)) (by simpa using ha')).2

/-- The lines of tokens, given which ones a line break goes before. -/
def lnToks (n : Nat) : List (Tk × Bool) → List (Tk × Nat)
  | [] => []
  | (t, b) :: r => (t, if b then n + 1 else n) :: lnToks (if b then n + 1 else n) r

theorem lnSeps_from {p8 : Bool} : ∀ {ts : List OTok} {a : OTok} {n : Nat}, a.text ≠ [] → (∀ t ∈ ts, t.text ≠ []) → (∀ t ∈ a :: ts, t.comment = false) →
    Neighbours Apart (a :: ts) → lnSeps n (sepsFrom p8 true a false ts) = lnToks n (ts.map fun t => ((t.kind, t.text), t.brk))
  | [], _, _, _, _, _, _ => rfl
  | t :: ts, a, n, ha, ht, hc, hn => by
    have hct := hc t (by simp)
    have ih : ∀ n, _ := fun n => lnSeps_from (p8 := p8) (ts := ts) (a := t) (n := n) (ht t (by simp)) (fun x hx => ht x (by simp [hx]))
      (fun x hx => hc x (by simp at hx ⊢; tauto)) hn.2
    have h10 : ([10] : List Nat).count 10 = 1 := rfl
    have h32 : ([32] : List Nat).count 10 = 0 := rfl
    have hap := hn.1
    cases hb : t.brk with
    | true =>
      have hw : wspaceOut p8 true a t true = ([10], false) := by
        have : (decide (a.endidx < t.idx) || a.src != t.src || a.modified || t.modified) = true := by
          simp only [Bool.or_eq_true, decide_eq_true_eq, bne_iff_ne]
          by_cases h1 : a.src = t.src
          · cases h2 : a.modified <;> cases h3 : t.modified <;> simp
            exact Or.inl ((hap h2 h3 h1).2 hb)
          · simp [h1]
        simp [wspaceOut, this, ha, hct]
      simp only [sepsFrom, hb, Bool.false_or, hw, hct, Bool.false_and, Bool.false_eq_true, if_false, lnSeps, List.map_cons, lnToks, if_true, h10]
      rw [ih]; rfl
    | false =>
      have hw : (wspaceOut p8 true a t false).1.count 10 = 0 ∧ (wspaceOut p8 true a t false).2 = false := by
        simp only [wspaceOut, Bool.false_and, Bool.not_true, Bool.or_self, Bool.false_eq_true, if_false]
        repeat' split
        all_goals simp
      simp only [sepsFrom, hb, Bool.false_or, hw.1, hw.2, hct, Bool.false_and, Bool.false_eq_true, if_false, lnSeps, List.map_cons, lnToks, Nat.add_zero]
      rw [ih]; rfl

/-! ### What the tokenizer says about a token -/

/-- The token stands on its own. -/
def Alone (p8 : Bool) (t : Tk) : Prop := lexStep p8 t.2 = .tok t.1 t.2 []

theorem skip_suffix {p8 : Bool} {l rest : List Nat} (hs : lexStep p8 l = .skip rest) : ∃ p, l = p ++ rest := by
  have key : ∀ s : List Nat, ∃ p, s = p ++ afterLine s := by
    intro s
    refine ⟨s.takeWhile (· ≠ 10) ++ (s.dropWhile (· ≠ 10)).take 1, ?_⟩
    unfold afterLine
    rw [List.append_assoc, List.take_append_drop, List.takeWhile_append_dropWhile]
  unfold lexStep at hs
  split at hs
  · cases hs
  · next c r =>
    have drop1 : (∃ p, r.drop 1 = p ++ rest) → ∃ p, c :: r = p ++ rest := fun ⟨p, hp⟩ =>
      ⟨c :: (r.take 1 ++ p), by rw [List.cons_append, List.append_assoc, ← hp, List.take_append_drop]⟩
    split at hs
    · cases hs; exact ⟨[c], rfl⟩
    · cases hs
    · cases hs
    · split at hs <;> cases hs
    · split at hs <;> cases hs
    · unfold lexComment at hs
      split at hs
      · split at hs
        · next hl =>
          cases hs
          obtain ⟨p, _, h2, _⟩ := scanLong_local hl
          exact drop1 ⟨p, h2⟩
        · cases hs
      · cases hs; exact drop1 (key _)
    · cases hs; exact drop1 (key _)
    · cases hs
    · cases hs
    · cases hs

theorem alone_of {p8 : Bool} {l t r : List Nat} {k : TokKind} (h : lexStep p8 l = .tok k t r) : Alone p8 (k, t) := by
  have h1 := lexStep_append h
  rw [h1] at h
  simpa [Alone] using (lexStep_local (r' := []) (Or.inr (Or.inl rfl)) h).2

theorem lexLines_alone {p8 : Bool} : ∀ (m : Nat) {l : List Nat} {n : Nat} {ts : List (Tk × Nat)}, l.length = m → lexLines p8 n l = some ts →
    ∀ p ∈ ts, Alone p8 p.1 ∧ ∀ c ∈ p.1.2, c ∈ l := by
  intro m
  induction m using Nat.strongRecOn with
  | ind m ih =>
    intro l n ts hm h
    rw [lexLines] at h
    split at h
    · cases h; nofun
    · split at h
      · cases h
      · next rest hs =>
        split at h
        · next hlt =>
          obtain ⟨p, rfl⟩ := skip_suffix hs
          intro x hx
          have ⟨h1, h2⟩ := ih _ (hm ▸ hlt) rfl h x hx
          exact ⟨h1, fun c hc => List.mem_append_right _ (h2 c hc)⟩
        · cases h
      · next k t rest hs =>
        split at h
        · next hlt =>
          have hl := lexStep_append hs
          simp only [Option.map_eq_some_iff] at h
          obtain ⟨ts', h1, rfl⟩ := h
          intro x hx
          rw [hl]
          rcases List.mem_cons.1 hx with rfl | hx
          · exact ⟨alone_of hs, fun c hc => List.mem_append_left _ hc⟩
          · have ⟨h3, h4⟩ := ih _ (hm ▸ hlt) rfl h1 x hx
            exact ⟨h3, fun c hc => List.mem_append_right _ (h4 c hc)⟩
        · cases h

/-- The lines do not matter for the tokens. -/
theorem lexLines_all {p8 : Bool} : ∀ (m : Nat) {l : List Nat} {n : Nat}, l.length = m → (lexLines p8 n l).map (List.map (·.1)) = lexAll p8 l := by
  intro m
  induction m using Nat.strongRecOn with
  | ind m ih =>
    intro l n hm
    rw [lexLines, lexAll]
    by_cases h0 : l = []
    · simp [h0]
    · rw [if_neg h0, if_neg h0]
      cases hs : lexStep p8 l with
      | bad => rfl
      | skip rest =>
        dsimp only
        by_cases hlt : rest.length < l.length
        · rw [if_pos hlt, if_pos hlt]; exact ih _ (hm ▸ hlt) rfl
        · rw [if_neg hlt, if_neg hlt]; rfl
      | tok k t rest =>
        dsimp only
        by_cases hlt : rest.length < l.length
        · rw [if_pos hlt, if_pos hlt, ← ih _ (hm ▸ hlt) (n := n) rfl, Option.map_map, Option.map_map]; rfl
        · rw [if_neg hlt, if_neg hlt]; rfl

/-! ### Line breaks in the output of a tree -/

/-- No line break is put out first or twice; `b` says whether one may come now. -/
def NN : Bool → List M → Prop
  | _, [] => True
  | _, .t _ :: ms => NN true ms
  | b, .nl :: ms => b = true ∧ NN false ms

/-- No line break is put out. -/
def Quiet : List M → Prop
  | [] => True
  | .t _ :: ms => Quiet ms
  | .nl :: _ => False

@[simp] theorem quiet_nil : Quiet [] = True := rfl
@[simp] theorem quiet_t {k : K} {ms : List M} : Quiet (.t k :: ms) = Quiet ms := rfl
@[simp] theorem quiet_append : ∀ {a b : List M}, Quiet (a ++ b) ↔ Quiet a ∧ Quiet b
  | [], b => by simp
  | .t _ :: a, b => by simp [quiet_append (a := a)]
  | .nl :: a, b => by simp [Quiet]

theorem nn_mono : ∀ {b : Bool} {ms : List M}, NN false ms → NN b ms
  | _, [], _ => trivial
  | _, .t _ :: _, h => h
  | _, .nl :: _, h => absurd h.1 (by simp)

theorem nn_append : ∀ {b : Bool} {x y : List M}, NN b x → NN false y → NN b (x ++ y)
  | _, [], _, _, h => nn_mono h
  | _, .t _ :: x, _, h, h' => nn_append (x := x) h h'
  | _, .nl :: x, _, h, h' => ⟨h.1, nn_append (x := x) h.2 h'⟩

theorem nn_quiet : ∀ {x y : List M}, Quiet x → NN true y → NN true (x ++ y)
  | [], _, _, h => h
  | .t _ :: x, _, h, h' => nn_quiet (x := x) h h'
  | .nl :: _, _, h, _ => h.elim

theorem quiet_nn : ∀ {b : Bool} {x : List M}, Quiet x → NN b x
  | _, [], _ => trivial
  | _, .t _ :: x, h => quiet_nn (x := x) h
  | _, .nl :: _, h => h.elim

/-- The lines of marked tokens. -/
def lnMarks (n : Nat) : List (K × Bool) → List T
  | [] => []
  | (k, b) :: r => ⟨k, if b then n + 1 else n⟩ :: lnMarks (if b then n + 1 else n) r

theorem lay_marks : ∀ {b : Bool} {n : Nat} {ms : List M}, NN b ms → lay n ms = lnMarks n (marks false ms) ∧ (b = false → lay (n + 1) ms = lnMarks n (marks true ms))
  | _, _, [], _ => ⟨rfl, fun _ => rfl⟩
  | _, n, .t k :: ms, h => by
    have ih : ∀ n, lay n ms = lnMarks n (marks false ms) := fun n => (lay_marks (b := true) (n := n) (ms := ms) h).1
    refine ⟨?_, fun _ => ?_⟩
    · simp only [lay, marks, lnMarks, ih, Bool.false_eq_true, if_false]
    · simp only [lay, marks, lnMarks, ih, if_true]
  | b, n, .nl :: ms, h => by
    refine ⟨?_, fun hb => absurd h.1 (by simp [hb])⟩
    exact (lay_marks (b := false) (n := n) (ms := ms) h.2).2 rfl

end Verif.Mini
