import Verif.JsExport
import Verif.P64Lemmas
namespace Verif.Export

open Verif.ExportSpec (Op Name)

theorem dictOf_nodup {Ref : Type} {l : List (Name × Ref)} (h : (l.map (·.1)).Nodup) : dictOf l = l := by
  have key : ∀ (l d : List (Name × Ref)), ((d ++ l).map (·.1)).Nodup →
      l.foldl (fun d x => dictSet d x.1 x.2) d = d ++ l := by
    intro l
    induction l with
    | nil => intro d _; simp
    | cons x l ih =>
      intro d hd
      have hx : d.any (fun y => y.1 == x.1) = false := by
        rw [List.any_eq_false]
        intro y hy
        rw [List.map_append, List.nodup_append] at hd
        have := hd.2.2 y.1 (List.mem_map.mpr ⟨y, hy, rfl⟩) x.1 (by simp)
        simpa using this
      rw [List.foldl_cons, show dictSet d x.1 x.2 = d ++ [x] by unfold dictSet; rw [hx]; rfl]
      rw [ih (d ++ [x]) (by simpa using hd)]
      simp
  exact key l [] h

end Verif.Export

namespace Verif.JsExport

open Verif.P64 (lit chunk)

/-! ### Finding the variables -/

/-- The texts that `var\s+NAME\s*=\s*` matches. -/
def IsHead (name h : List Nat) : Prop :=
  ∃ w1 w2 w3, h = lit "var" ++ w1 ++ name ++ w2 ++ [0x3d] ++ w3 ∧ w1 ≠ [] ∧ (∀ c ∈ w1, pyIsSpace c = true) ∧
    (∀ c ∈ w2, pyIsSpace c = true) ∧ ∀ c ∈ w3, pyIsSpace c = true

theorem dropLit_iff {p s r : List Nat} : dropLit p s = some r ↔ s = p ++ r := by
  unfold dropLit
  split
  · next h =>
    rw [List.isPrefixOf_iff_prefix] at h
    obtain ⟨t, rfl⟩ := h
    simp [eq_comm]
  · next h =>
    rw [List.isPrefixOf_iff_prefix] at h
    simp only [reduceCtorEq, false_iff]
    rintro rfl; exact h (List.prefix_append _ _)

theorem span_space {w s : List Nat} (hw : ∀ c ∈ w, pyIsSpace c = true) (hs : ∀ c, s.head? = some c → pyIsSpace c = false) :
    (w ++ s).takeWhile pyIsSpace = w ∧ (w ++ s).dropWhile pyIsSpace = s := by
  induction w with
  | nil =>
    cases s with
    | nil => simp
    | cons c s => simp [hs c rfl]
  | cons c w ih =>
    have := ih fun x hx => hw x (by simp [hx])
    simp [hw c (by simp), this]

theorem matchHead_iff {name s r : List Nat} (hn : ∃ c n, name = c :: n ∧ pyIsSpace c = false) :
    matchHead name s = some r ↔ ∃ h, IsHead name h ∧ s = h ++ 0x5b :: r := by
  obtain ⟨c0, n0, rfl, hc0⟩ := hn
  have spaces : ∀ l : List Nat, ∀ c ∈ l.takeWhile pyIsSpace, pyIsSpace c = true := by
    intro l c hc
    have := List.all_takeWhile (p := pyIsSpace) (l := l)
    rw [List.all_eq_true] at this
    exact this c hc
  unfold matchHead
  constructor
  · intro h
    simp only [Option.bind_eq_some_iff, dropLit_iff] at h
    obtain ⟨s1, rfl, h⟩ := h
    split at h
    · simp at h
    · next hw1 =>
      simp only [Option.bind_eq_some_iff, dropLit_iff] at h
      obtain ⟨s2, e2, s3, e3, e4⟩ := h
      refine ⟨_, ⟨s1.takeWhile pyIsSpace, s2.takeWhile pyIsSpace, s3.takeWhile pyIsSpace, rfl, hw1, spaces _, spaces _,
        spaces _⟩, ?_⟩
      have h1 := List.takeWhile_append_dropWhile (p := pyIsSpace) (l := s1)
      have h2 := List.takeWhile_append_dropWhile (p := pyIsSpace) (l := s2)
      have h3 := List.takeWhile_append_dropWhile (p := pyIsSpace) (l := s3)
      rw [e2] at h1; rw [e3] at h2; rw [e4] at h3
      conv => lhs; rw [← h1, ← h2, ← h3]
      simp [List.append_assoc]
  · rintro ⟨_, ⟨w1, w2, w3, rfl, hw1, h1, h2, h3⟩, rfl⟩
    have a1 := span_space (w := w1) (s := c0 :: n0 ++ w2 ++ [0x3d] ++ w3 ++ 0x5b :: r) h1 (by
      intro c hc; simp at hc; exact hc ▸ hc0)
    have a2 := span_space (w := w2) (s := [0x3d] ++ w3 ++ 0x5b :: r) h2 (by intro c hc; simp at hc; subst hc; decide)
    have a3 := span_space (w := w3) (s := 0x5b :: r) h3 (by intro c hc; simp at hc; subst hc; decide)
    simp only [List.append_assoc] at a1 a2 a3 ⊢
    simp only [Option.bind_eq_some_iff, dropLit_iff]
    refine ⟨_, rfl, ?_⟩
    rw [if_neg (by rw [a1.1]; exact hw1), a1.2]
    simp only [Option.bind_eq_some_iff, dropLit_iff]
    exact ⟨_, rfl, _, a2.2, a3.2⟩

theorem IsHead.no_bracket {name h : List Nat} (hh : IsHead name h) (hn : 0x5b ∉ name ∧ 0x5d ∉ name) : 0x5b ∉ h ∧ 0x5d ∉ h := by
  obtain ⟨w1, w2, w3, rfl, -, h1, h2, h3⟩ := hh
  have sp : ∀ w : List Nat, (∀ c ∈ w, pyIsSpace c = true) → 0x5b ∉ w ∧ 0x5d ∉ w := fun w hw =>
    ⟨fun hc => absurd (hw _ hc) (by decide), fun hc => absurd (hw _ hc) (by decide)⟩
  have v : 0x5b ∉ lit "var" ∧ 0x5d ∉ lit "var" := by decide
  simp only [List.mem_append, not_or]
  have := sp w1 h1; have := sp w2 h2; have := sp w3 h3
  simp_all

/-- The text ends with the beginning of an assignment of a list to the variable. -/
def EndsHead (name a : List Nat) : Prop := ∃ x h, IsHead name h ∧ a = x ++ h ++ [0x5b]

/-- It does so for the first time at its end. -/
def First (name a : List Nat) : Prop := EndsHead name a ∧ ∀ a', a' <+: a → a' ≠ a → ¬ EndsHead name a'

/-- Names of variables that need no care. -/
def Plain (name : List Nat) : Prop := (∃ c n, name = c :: n ∧ pyIsSpace c = false) ∧ 0x5b ∉ name ∧ 0x5d ∉ name

theorem plain_name : Plain nameVar := ⟨⟨0x5f, lit "cartname", rfl, by decide⟩, by decide⟩
theorem plain_data : Plain dataVar := ⟨⟨0x5f, lit "cartdat", rfl, by decide⟩, by decide⟩

theorem span_close {g b : List Nat} (hg : 0x5d ∉ g) (hb : b.head? = some 0x5d) :
    (g ++ b).takeWhile (· != 0x5d) = g ∧ (g ++ b).dropWhile (· != 0x5d) = b := by
  induction g with
  | nil =>
    cases b with
    | nil => simp at hb
    | cons c b => simp at hb; subst hb; simp
  | cons c g ih =>
    have := ih fun h => hg (by simp [h])
    have hc : c ≠ 0x5d := by rintro rfl; exact hg (by simp)
    simp [hc, this]

theorem findVar_first {name a g b : List Nat} (hp : Plain name) (ha : First name a) (hg : 0x5d ∉ g)
    (hb : b.head? = some 0x5d) : findVar name (a ++ (g ++ b)) = some (a, g, b) := by
  induction a with
  | nil => obtain ⟨⟨x, h, -, e⟩, -⟩ := ha; simp at e
  | cons c a ih =>
    rw [List.cons_append, findVar]
    have rest : ∀ o, (matchHead name (c :: (a ++ (g ++ b))) = none) →
        (findVar name (a ++ (g ++ b))) = o → (findVar name (a ++ (g ++ b))) = some (a, g, b) := by
      intro o hm _
      apply ih
      obtain ⟨⟨x, h, hh, e⟩, hmin⟩ := ha
      constructor
      · cases x with
        | nil =>
          exfalso
          have := (matchHead_iff hp.1 (s := c :: (a ++ (g ++ b))) (r := g ++ b)).mpr ⟨h, hh, by
            rw [← List.cons_append, e]; simp⟩
          rw [this] at hm; simp at hm
        | cons d x =>
          simp only [List.cons_append] at e
          injection e with e1 e2
          exact ⟨x, h, hh, by rw [e2]⟩
      · intro a' hpre hne ⟨x', h', hh', e'⟩
        refine hmin (c :: a') ?_ (by simpa using hne) ⟨c :: x', h', hh', by rw [e']; simp⟩
        rw [List.cons_prefix_cons]; exact ⟨rfl, hpre⟩
    cases hm : matchHead name (c :: (a ++ (g ++ b))) with
    | none => simp only; rw [rest _ hm rfl]; rfl
    | some r =>
      obtain ⟨h, hh, e⟩ := (matchHead_iff hp.1).mp hm
      have hb1 := hh.no_bracket hp.2
      obtain ⟨⟨x0, h0, hh0, e0⟩, hmin⟩ := ha
      have key : c :: a = h ++ [0x5b] ∧ g ++ b = r := by
        have e' : (c :: a) ++ (g ++ b) = (h ++ [0x5b]) ++ r := by simpa using e
        rcases List.append_eq_append_iff.mp e' with ⟨t, e1, e2⟩ | ⟨t, e1, e2⟩
        · -- h ++ [91] = (c :: a) ++ t
          cases ht : t.reverse with
          | nil =>
            have : t = [] := by simpa using ht
            subst this; simp at e1 e2; exact ⟨by rw [e1], e2⟩
          | cons z t' =>
            exfalso
            have ht2 : t = t'.reverse ++ [z] := by rw [← List.reverse_reverse t, ht]; simp
            rw [ht2, e0, ← List.append_assoc] at e1
            have : h = (x0 ++ h0 ++ [0x5b] ++ t'.reverse) := by
              have := congrArg List.dropLast e1
              rw [List.dropLast_concat, List.dropLast_concat] at this
              exact this
            exact hb1.1 (by rw [this]; simp)
        · cases t with
          | nil => simp at e1 e2; exact ⟨e1, e2.symm⟩
          | cons z t =>
            exfalso
            exact hmin (h ++ [0x5b]) (by rw [e1]; exact List.prefix_append _ _) (by
              intro e3; rw [← e3] at e1; simp at e1) ⟨[], h, hh, by simp⟩
      obtain ⟨k1, k2⟩ := key
      have hin : r.contains 0x5d = true := by
        rw [← k2]
        cases b with
        | nil => simp at hb
        | cons z b => simp at hb; subst hb; simp
      simp only [hin, if_true]
      have hs := span_close hg hb
      rw [← k2, hs.1, hs.2]
      congr 2
      rw [← List.cons_append, List.take_append_of_le_length (by simp; omega), List.take_of_length_le (by simp; omega)]

/-! ### Splitting -/

theorem splitC_ne_nil (sep : Nat) (s : List Nat) : splitC sep s ≠ [] := by
  cases s with
  | nil => simp [splitC]
  | cons c s => rw [splitC]; split
                · simp
                · cases splitC sep s <;> simp [P64.consHead]

theorem splitC_plain {sep : Nat} {s : List Nat} (h : sep ∉ s) : splitC sep s = [s] := by
  induction s with
  | nil => rfl
  | cons c s ih =>
    have hc : c ≠ sep := by rintro rfl; exact h (by simp)
    rw [splitC, if_neg hc, ih fun h' => h (by simp [h'])]; rfl

theorem splitC_append {sep : Nat} {a b : List Nat} (h : sep ∉ a) : splitC sep (a ++ sep :: b) = a :: splitC sep b := by
  induction a with
  | nil => simp [splitC]
  | cons c a ih =>
    have hc : c ≠ sep := by rintro rfl; exact h (by simp)
    rw [List.cons_append, splitC, if_neg hc, ih fun h' => h (by simp [h'])]; rfl

theorem splitC_join {sep : Nat} {ls : List (List Nat)} (hne : ls ≠ []) (h : ∀ l ∈ ls, sep ∉ l) :
    splitC sep (joinC sep ls) = ls := by
  induction ls with
  | nil => exact absurd rfl hne
  | cons l ls ih =>
    cases ls with
    | nil => rw [joinC, splitC_plain (h l (by simp))]
    | cons l' ls =>
      rw [joinC, splitC_append (h l (by simp)), ih (by simp) fun x hx => h x (by simp [hx])]

theorem joinC_cons {sep : Nat} (l : List Nat) (ls : List (List Nat)) :
    joinC sep (l :: ls) = l ++ ls.flatMap fun x => sep :: x := by
  induction ls generalizing l with
  | nil => simp [joinC]
  | cons l' ls ih => rw [joinC, ih]; simp

end Verif.JsExport
