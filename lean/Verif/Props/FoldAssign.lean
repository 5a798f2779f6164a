import Verif.FoldAssign
import Verif.FoldTreeLemmas
import Verif.Props.FoldTree
/-!
C25: erasing constant variables from an assignment.
-/
namespace Verif
open Spec

variable {V S α : Type}

def exList : List Ex → Exs
  | [] => .nil
  | e :: es => .cons e (exList es)

/-- What is left of a list when the marked entries go. -/
def unmarked {β : Type} : List Bool → List β → List β
  | true :: ms, _ :: xs => unmarked ms xs
  | false :: ms, x :: xs => x :: unmarked ms xs
  | [], xs => xs
  | _ :: _, [] => []

theorem foldr_succ {β : Type} (idx : List Nat) (t : α) (ts : List α) (s : β) (ss : List β) :
    (idx.map (· + 1)).foldr (fun i p => eraseStep p i) (t :: ts, s :: ss) =
      (t :: (idx.foldr (fun i p => eraseStep p i) (ts, ss)).1, s :: (idx.foldr (fun i p => eraseStep p i) (ts, ss)).2) := by
  induction idx with
  | nil => rfl
  | cons i idx ih =>
    simp only [List.map_cons, List.foldr_cons, ih]
    generalize idx.foldr (fun i p => eraseStep p i) (ts, ss) = q
    simp only [eraseStep, List.eraseIdx_cons_succ, List.length_cons, Nat.add_lt_add_iff_right]
    by_cases h : i < q.2.length
    · simp only [if_pos h]
    · simp only [if_neg h]

theorem foldr_succ_nil {β : Type} (idx : List Nat) (t : α) (ts : List α) :
    (idx.map (· + 1)).foldr (fun i p => eraseStep p i) (t :: ts, ([] : List β)) =
      (t :: (idx.foldr (fun i p => eraseStep p i) (ts, ([] : List β))).1, []) ∧
    (idx.foldr (fun i p => eraseStep p i) (ts, ([] : List β))).2 = [] := by
  induction idx with
  | nil => exact ⟨rfl, rfl⟩
  | cons i idx ih =>
    simp only [List.map_cons, List.foldr_cons, ih.1]
    generalize hq : idx.foldr (fun i p => eraseStep p i) (ts, ([] : List β)) = q
    rw [hq] at ih
    refine ⟨?_, ?_⟩
    · simp [eraseStep]
    · simp [eraseStep, ih.2]

theorem foldr_positions {β : Type} : ∀ (ms : List Bool) (ts : List α) (ss : List β), ms.length = ts.length →
    (positions ms).foldr (fun i p => eraseStep p i) (ts, ss) = (unmarked ms ts, unmarked ms ss)
  | [], ts, ss, h => by
    have : ts = [] := by cases ts <;> simp_all
    subst this; rfl
  | m :: ms, [], ss, h => by simp at h
  | m :: ms, t :: ts, [], h => by
    have ih := foldr_positions ms ts ([] : List β) (by simpa using h)
    have h2 := (foldr_succ_nil (β := β) (positions ms) t ts).1
    rw [ih] at h2
    cases m
    · simp only [positions, Bool.false_eq_true, if_false, List.nil_append, h2, unmarked]
    · simp only [positions, if_true, List.cons_append, List.nil_append, List.foldr_cons]
      rw [h2]
      simp [eraseStep, unmarked]
  | m :: ms, t :: ts, s :: ss, h => by
    have ih := foldr_positions ms ts ss (by simpa using h)
    have h2 := foldr_succ (positions ms) t ts s ss
    rw [ih] at h2
    cases m
    · simp only [positions, Bool.false_eq_true, if_false, List.nil_append, h2, unmarked]
    · simp only [positions, if_true, List.cons_append, List.nil_append, List.foldr_cons]
      rw [h2]
      simp [eraseStep, unmarked]

theorem positions_length (ms : List Bool) : (positions ms).length = ms.count true := by
  induction ms with
  | nil => rfl
  | cons m ms ih => cases m <;> simp [positions, ih]

/-- Leaving out the last erasure keeps the last marked target. -/
theorem positions_dropLast : ∀ (ms : List Bool), (positions ms).length = ms.length →
    (positions ms).dropLast = positions (ms.dropLast ++ (if ms = [] then [] else [false]))
  | [], _ => rfl
  | m :: ms, h => by
    rw [positions_length] at h
    have hm : m = true := by
      cases m
      · have := List.count_le_length (l := ms) (a := true); simp at h; omega
      · rfl
    subst hm
    cases ms with
    | nil => rfl
    | cons m' ms =>
      have ih := positions_dropLast (m' :: ms) (by rw [positions_length]; simpa using h)
      simp only [reduceCtorEq, if_false] at ih ⊢
      rw [List.dropLast_cons_of_ne_nil (by simp)]
      rw [show positions (true :: m' :: ms) = 0 :: (positions (m' :: ms)).map (· + 1) by rfl]
      rw [List.dropLast_cons_of_ne_nil (by
        have := positions_length (m' :: ms)
        intro hc
        have hl := congrArg List.length hc
        rw [List.length_map, this] at hl
        simp at h hl
        omega)]
      rw [← List.map_dropLast, ih]
      rfl

section
variable {w : W V S} {lit : LV → Option V} {ρ : Nat → Option Nat}

/-- The sources of erased targets are constants: one value, no effect. -/
def ErasedConst (w : W V S) (lit : LV → Option V) (ρ : Nat → Option Nat) : List Bool → List Ex → Prop
  | true :: ms, e :: es => (∃ v, ∀ s, w.vals lit ρ e s = some ([v], s)) ∧ ErasedConst w lit ρ ms es
  | false :: ms, _ :: es => ErasedConst w lit ρ ms es
  | _, _ => True

/-- Targets without a source of their own are only erased if the last source gives one value. -/
def TailOk : List Bool → List Ex → Prop
  | ms, [e] => e.multi = true → ∀ m ∈ ms.tail, m = false
  | _ :: ms, _ :: e :: es => TailOk ms (e :: es)
  | _, _ => True

/-- No source but the last may give several values. -/
def OneEach : List Ex → Prop
  | e :: e' :: es => e.multi = false ∧ OneEach (e' :: es)
  | _ => True

/-- No source that may give several values becomes the last one while it has to feed more than its own target. -/
def NoExpose : List Bool → List α → List Ex → Prop
  | m :: ms, _ :: ts, e :: e' :: es =>
    (m = false → unmarked ms (e' :: es) = [] → e.multi = true → unmarked ms ts = []) ∧ NoExpose ms ts (e' :: es)
  | _, _, _ => True

theorem adjust_nil (n : Nat) : w.adjust n [] = List.replicate n (w.inj .nil) := by
  induction n with
  | zero => rfl
  | succ n ih => simp only [W.adjust, ih, List.replicate_succ]

theorem unmarked_replicate (ms : List Bool) (ts : List α) (x : V) (h : ms.length = ts.length) :
    unmarked ms (List.replicate ts.length x) = List.replicate (unmarked ms ts).length x := by
  induction ms generalizing ts with
  | nil => cases ts <;> simp_all [unmarked]
  | cons m ms ih =>
    cases ts with
    | nil => simp at h
    | cons t ts =>
      have := ih ts (by simpa using h)
      cases m <;> simp [unmarked, List.replicate_succ, this]

theorem args_cons2 (e e' : Ex) (es : List Ex) (s : S) : w.args lit ρ (exList (e :: e' :: es)) s =
    (oneVal w lit ρ e s).bind fun p => (w.args lit ρ (exList (e' :: es)) p.2).map fun q => (p.1 :: q.1, q.2) := by
  simp only [exList, W.args, oneVal]; cases w.vals lit ρ e s <;> rfl

/-- The values reaching the targets. -/
def given (w : W V S) (lit : LV → Option V) (ρ : Nat → Option Nat) (n : Nat) (es : List Ex) (s : S) : Option (List V × S) :=
  (w.args lit ρ (exList es) s).map fun p => (w.adjust n p.1, p.2)

theorem given_cons2 (n : Nat) (e e' : Ex) (es : List Ex) (s : S) : given w lit ρ (n + 1) (e :: e' :: es) s =
    (oneVal w lit ρ e s).bind fun p => (given w lit ρ n (e' :: es) p.2).map fun q => (p.1 :: q.1, q.2) := by
  unfold given
  rw [args_cons2]
  cases oneVal w lit ρ e s with
  | none => rfl
  | some p => simp only [Option.bind_some]; cases w.args lit ρ (exList (e' :: es)) p.2 <;> rfl

theorem given_single (n : Nat) (e : Ex) (s : S) (h : e.multi = false) : given w lit ρ (n + 1) [e] s =
    (oneVal w lit ρ e s).map fun p => (p.1 :: List.replicate n (w.inj .nil), p.2) := by
  unfold given
  simp only [exList, W.args, oneVal]
  cases hv : w.vals lit ρ e s with
  | none => rfl
  | some p =>
    have := single_of_not_multi h s p hv
    simp only [Option.map_some, Option.some.injEq, Prod.mk.injEq, and_true]
    rw [this]
    simp only [W.adjust, adjust_nil, W.first]

theorem adjust_first (vs : List V) : w.adjust 1 vs = [w.first vs] := by cases vs <;> rfl

theorem unmarked_all {β : Type} (ms : List Bool) (hall : ∀ m ∈ ms, m = false) (xs : List β) :
    unmarked ms xs = xs ∨ xs.length < ms.length := by
  induction ms generalizing xs with
  | nil => left; rfl
  | cons m ms ih =>
    have hm := hall m (by simp)
    subst hm
    cases xs with
    | nil => right; simp
    | cons x xs =>
      rcases ih (fun m hm => hall m (List.mem_cons_of_mem _ hm)) xs with h | h
      · left; simp [unmarked, h]
      · right; simpa using h

theorem erase_values : ∀ (ms : List Bool) (ts : List α) (es : List Ex) (s : S), ms.length = ts.length → ErasedConst w lit ρ ms es →
    TailOk ms es → NoExpose ms ts es →
    given w lit ρ (unmarked ms ts).length (unmarked ms es) s = (given w lit ρ ts.length es s).map fun p => (unmarked ms p.1, p.2)
  | [], ts, es, s, h, _, _, _ => by
    have : ts = [] := by cases ts <;> simp_all
    subst this
    simp only [unmarked, Option.map_id_fun']; cases given w lit ρ _ es s <;> rfl
  | m :: ms, [], es, s, h, _, _, _ => by simp at h
  | m :: ms, t :: ts, [], s, h, _, _, _ => by
    have hu : unmarked (m :: ms) ([] : List Ex) = [] := by cases m <;> rfl
    rw [hu]
    simp only [given, exList, W.args, Option.map_some, Option.some.injEq, Prod.mk.injEq, and_true, adjust_nil]
    exact (unmarked_replicate (m :: ms) (t :: ts) _ h).symm
  | m :: ms, t :: ts, [e], s, h, hc, ht, _ => by
    have hl : ms.length = ts.length := by simpa using h
    cases m with
    | true =>
      obtain ⟨⟨v, hv⟩, _⟩ := hc
      have hu : unmarked ms ([] : List Ex) = [] := by cases ms with
        | nil => rfl
        | cons m _ => cases m <;> rfl
      simp only [unmarked, hu, List.length_cons]
      simp only [given, exList, W.args, hv, Option.map_some, adjust_nil, W.adjust, unmarked, unmarked_replicate ms ts _ hl]
    | false =>
      have hu : unmarked ms ([] : List Ex) = [] := by cases ms with
        | nil => rfl
        | cons m _ => cases m <;> rfl
      simp only [unmarked, hu, List.length_cons]
      cases hm : e.multi with
      | false =>
        rw [given_single _ _ _ hm, given_single _ _ _ hm]
        cases oneVal w lit ρ e s with
        | none => rfl
        | some p => simp only [Option.map_some, unmarked, unmarked_replicate ms ts _ hl]
      | true =>
        have hall : ∀ m ∈ ms, m = false := by
          simp only [TailOk, List.tail_cons] at ht
          exact ht hm
        have hid := fun {β : Type} (xs : List β) => unmarked_all ms hall xs
        have h1 : unmarked ms ts = ts := by
          rcases hid ts with h | h
          · exact h
          · omega
        rw [h1]
        simp only [given, Option.map_map]
        congr 1
        funext p
        simp only [Function.comp, Prod.mk.injEq, and_true]
        have hlen : ∀ n (vs : List V), (w.adjust n vs).length = n := by
          intro n; induction n with
          | zero => intro vs; rfl
          | succ n ih => intro vs; cases vs <;> simp [W.adjust, ih]
        have h2 : unmarked (false :: ms) (w.adjust (ts.length + 1) p.1) = w.adjust (ts.length + 1) p.1 := by
          obtain ⟨x, xs, hx⟩ : ∃ x xs, w.adjust (ts.length + 1) p.1 = x :: xs := by
            cases p.1 <;> exact ⟨_, _, rfl⟩
          rw [hx]
          simp only [unmarked]
          rcases hid xs with h | h
          · rw [h]
          · have := hlen (ts.length + 1) p.1; rw [hx] at this; simp at this; omega
        exact h2.symm
  | m :: ms, t :: ts, e :: e' :: es, s, h, hc, ht, hn => by
    have hl : ms.length = ts.length := by simpa using h
    have ht' : TailOk ms (e' :: es) := by simpa only [TailOk] using ht
    simp only [NoExpose] at hn
    cases m with
    | true =>
      obtain ⟨⟨v, hv⟩, hc'⟩ := hc
      have ih := erase_values ms ts (e' :: es) s hl hc' ht' hn.2
      have h1 : oneVal w lit ρ e s = some (v, s) := by simp only [oneVal, hv]; rfl
      simp only [unmarked, List.length_cons]
      rw [given_cons2, h1, ih]
      simp only [Option.bind_some, Option.map_map]
      rfl
    | false =>
      simp only [ErasedConst] at hc
      simp only [unmarked, List.length_cons]
      rw [given_cons2]
      cases hu : unmarked ms (e' :: es) with
      | cons f fs =>
        rw [given_cons2, ← hu]
        cases oneVal w lit ρ e s with
        | none => rfl
        | some p =>
          simp only [Option.bind_some]
          rw [erase_values ms ts (e' :: es) p.2 hl hc ht' hn.2]
          cases given w lit ρ ts.length (e' :: es) p.2 <;> rfl
      | nil =>
        have key : given w lit ρ ((unmarked ms ts).length + 1) [e] s =
            (oneVal w lit ρ e s).map fun p => (p.1 :: List.replicate (unmarked ms ts).length (w.inj .nil), p.2) := by
          cases hm : e.multi with
          | false => exact given_single _ _ _ hm
          | true =>
            rw [hn.1 rfl hu hm]
            simp only [given, exList, W.args, oneVal, List.length_nil, Option.map_map, List.replicate_zero]
            congr 1
            funext p
            simp only [Function.comp, Nat.zero_add, adjust_first]
        rw [key]
        cases oneVal w lit ρ e s with
        | none => rfl
        | some p =>
          simp only [Option.bind_some, Option.map_some]
          have ih := erase_values ms ts (e' :: es) p.2 hl hc ht' hn.2
          rw [hu] at ih
          simp only [given, exList, W.args, Option.map_some, adjust_nil] at ih
          simp only [given]
          cases hg : w.args lit ρ (exList (e' :: es)) p.2 with
          | none => simp only [exList] at hg; rw [hg] at ih; simp at ih
          | some q =>
            simp only [exList] at hg
            rw [hg] at ih
            simp only [Option.map_some, Option.some.injEq, Prod.mk.injEq] at ih
            simp only [Option.map_some, unmarked, ih.1, ih.2]

theorem noExpose_of_oneEach : ∀ (ms : List Bool) (ts : List α) (es : List Ex), OneEach es → NoExpose ms ts es
  | [], _, _, _ => by simp [NoExpose]
  | _ :: _, [], _, _ => by simp [NoExpose]
  | _ :: _, _ :: _, [], _ => by simp [NoExpose]
  | _ :: _, _ :: _, [_], _ => by simp [NoExpose]
  | m :: ms, t :: ts, e :: e' :: es, h => by
    simp only [OneEach] at h
    simp only [NoExpose]
    exact ⟨fun _ _ hm => by simp [h.1] at hm, noExpose_of_oneEach ms ts (e' :: es) h.2⟩

/-- The marks actually used: all but the last one if there are more sources than targets and every target is marked. -/
def usedMarks (ms : List Bool) (nSources : Nat) : List Bool :=
  if ms.length < nSources ∧ (positions ms).length = ms.length then ms.dropLast ++ (if ms = [] then [] else [false]) else ms

theorem usedMarks_length (ms : List Bool) (n : Nat) : (usedMarks ms n).length = ms.length := by
  unfold usedMarks
  split
  · cases ms <;> simp
  · rfl

theorem erasedConst_drop : ∀ (ms : List Bool) (es : List Ex), ErasedConst w lit ρ ms es →
    ErasedConst w lit ρ (ms.dropLast ++ (if ms = [] then [] else [false])) es
  | [], _, h => by simpa using h
  | [m], [], _ => by simp [ErasedConst]
  | [m], e :: es, h => by simp [ErasedConst]
  | m :: m' :: ms, [], _ => by simp [ErasedConst]
  | m :: m' :: ms, e :: es, h => by
    have ih := erasedConst_drop (m' :: ms) es
    simp only [reduceCtorEq, if_false] at ih ⊢
    rw [List.dropLast_cons_of_ne_nil (by simp), List.cons_append]
    cases m with
    | true => exact ⟨h.1, ih h.2⟩
    | false => simp only [ErasedConst] at h ⊢; exact ih h

theorem tailOk_of_short : ∀ (ms : List Bool) (es : List Ex), ms.length < es.length → TailOk ms es
  | _, [], h => by simp at h
  | [], [_], _ => by simp [TailOk]
  | [], _ :: _ :: _, _ => by simp [TailOk]
  | _ :: _, [_], h => by simp at h
  | m :: ms, e :: e' :: es, h => by
    simp only [TailOk]
    exact tailOk_of_short ms (e' :: es) (by simpa using h)

theorem noExpose_drop : ∀ (ms : List Bool) (ts : List α) (es : List Ex), ms.length = ts.length → (∀ m ∈ ms, m = true) →
    NoExpose (ms.dropLast ++ (if ms = [] then [] else [false])) ts es
  | [], ts, es, _, _ => by simp [NoExpose]
  | _ :: _, [], _, h, _ => by simp at h
  | m :: ms, t :: ts, [], _, _ => by cases ms <;> simp [NoExpose]
  | m :: ms, t :: ts, [_], _, _ => by cases ms <;> simp [NoExpose]
  | [m], t :: ts, e :: e' :: es, h, hall => by
    have : ts = [] := by cases ts <;> simp_all
    subst this
    simp [NoExpose, unmarked]
  | m :: m' :: ms, t :: ts, e :: e' :: es, h, hall => by
    have ih := noExpose_drop (m' :: ms) ts (e' :: es) (by simpa using h) (fun m hm => hall m (List.mem_cons_of_mem _ hm))
    simp only [reduceCtorEq, if_false] at ih ⊢
    rw [List.dropLast_cons_of_ne_nil (by simp), List.cons_append]
    simp only [NoExpose]
    have := hall m (by simp)
    exact ⟨fun hm => absurd (this.symm.trans hm) (by simp), ih⟩

theorem all_marked {ms : List Bool} (h : (positions ms).length = ms.length) : ∀ m ∈ ms, m = true := by
  rw [positions_length] at h
  intro m hm
  exact (List.count_eq_length.1 h m hm).symm

theorem eraseAssign_eq {β : Type} (nilEx : β) (isLocal : Bool) (ts : List α) (es : List β) (ms : List Bool)
    (h : ms.length = ts.length) : eraseAssign nilEx isLocal ts es (positions ms) =
      (let p := (unmarked (usedMarks ms es.length) ts, unmarked (usedMarks ms es.length) es)
       if p.1.isEmpty && p.2.isEmpty then none
       else if p.2.isEmpty && !isLocal then some (p.1, [nilEx])
       else some p) := by
  have hi : (if ts.length < es.length ∧ (positions ms).length = ts.length then (positions ms).dropLast else positions ms) =
      positions (usedMarks ms es.length) := by
    unfold usedMarks
    rw [← h]
    by_cases hc : ms.length < es.length ∧ (positions ms).length = ms.length
    · rw [if_pos hc, if_pos hc, positions_dropLast ms hc.2]
    · rw [if_neg hc, if_neg hc]
  unfold eraseAssign
  rw [hi]
  simp only [List.foldl_reverse]
  rw [foldr_positions _ _ _ (by rw [usedMarks_length, h])]

theorem used_erasedConst {ms : List Bool} {es : List Ex} (h : ErasedConst w lit ρ ms es) :
    ErasedConst w lit ρ (usedMarks ms es.length) es := by
  unfold usedMarks
  split
  · exact erasedConst_drop _ _ h
  · exact h

theorem used_tailOk {ms : List Bool} {es : List Ex} (h : TailOk ms es) : TailOk (usedMarks ms es.length) es := by
  by_cases hc : ms.length < es.length
  · exact tailOk_of_short _ _ (by rw [usedMarks_length]; exact hc)
  · unfold usedMarks; rw [if_neg (fun h => hc h.1)]; exact h

theorem used_noExpose {ms : List Bool} {ts : List α} {es : List Ex} (hl : ms.length = ts.length) (h : NoExpose ms ts es) :
    NoExpose (usedMarks ms es.length) ts es := by
  unfold usedMarks
  split
  · rename_i hc; exact noExpose_drop _ _ _ hl (all_marked hc.2)
  · exact h

theorem unmarked_of_short {β : Type} : ∀ (ms : List Bool) (ts : List α) (es : List β), ms.length = ts.length → es.length ≤ ts.length →
    unmarked ms ts = [] → unmarked ms es = []
  | [], ts, es, h, hl, _ => by
    have : ts = [] := by cases ts <;> simp_all
    subst this
    cases es <;> simp_all [unmarked]
  | _ :: _, [], _, h, _, _ => by simp at h
  | true :: ms, t :: ts, [], h, hl, hu => rfl
  | true :: ms, t :: ts, e :: es, h, hl, hu => unmarked_of_short ms ts es (by simpa using h) (by simpa using hl) hu
  | false :: ms, t :: ts, es, h, hl, hu => by simp [unmarked] at hu

theorem count_unmarked : ∀ (ms : List Bool) (ts : List α), ms.length = ts.length → unmarked ms ts = [] → ms.count true = ms.length
  | [], _, _, _ => rfl
  | _ :: _, [], h, _ => by simp at h
  | true :: ms, t :: ts, h, hu => by simp [count_unmarked ms ts (by simpa using h) hu]
  | false :: ms, t :: ts, h, hu => by simp [unmarked] at hu

/-- The kept marks: nothing is left of the targets only if nothing is left of the sources. -/
theorem used_nonempty {ms : List Bool} {ts : List α} {es : List Ex} (h : ms.length = ts.length)
    (hu : unmarked (usedMarks ms es.length) ts = []) (hne : ts ≠ []) : unmarked (usedMarks ms es.length) es = [] := by
  by_cases hc : ms.length < es.length
  · exfalso
    have hall := count_unmarked _ _ (by rw [usedMarks_length, h]) hu
    rw [usedMarks_length] at hall
    have hms : ms ≠ [] := by rintro rfl; cases ts <;> simp_all
    unfold usedMarks at hall
    by_cases hp : (positions ms).length = ms.length
    · rw [if_pos ⟨hc, hp⟩, if_neg hms] at hall
      rw [List.count_append] at hall
      have h1 := List.count_le_length (l := ms.dropLast) (a := true)
      rw [List.length_dropLast] at h1
      have : 0 < ms.length := List.length_pos_iff.2 hms
      simp at hall
      omega
    · rw [if_neg (fun h => hp h.2)] at hall
      exact hp (by rw [positions_length]; exact hall)
  · exact unmarked_of_short _ _ _ (by rw [usedMarks_length, h]) (by omega) hu

/-- Values for targets when nothing is assigned: filled with nil. -/
theorem given_nil (n : Nat) (s : S) (h : lit .nil = some (w.inj .nil)) : given w lit ρ (n + 1) [.const .nil] s = given w lit ρ (n + 1) [] s := by
  simp only [given, exList, W.args, W.vals, h, Option.map_some, W.adjust]

end

/-! ### The theorems -/

/-- Erasing marked targets from `ts = es`: the targets that remain are assigned the values they had before, with the same effects, in the
same order.  Missing: sources that may give several values and end up last although more targets follow (excluded by `NoExpose`, see
C25_expose_counterexample). -/
theorem C25_values_partial {w : W V S} {lit : LV → Option V} {ρ : Nat → Option Nat} (hlit : lit .nil = some (w.inj .nil))
    (isLocal : Bool) (ts : List α) (es : List Ex) (ms : List Bool) (hl : ms.length = ts.length) (hc : ErasedConst w lit ρ ms es)
    (ht : TailOk ms es) (hn : NoExpose ms ts es) {ts' : List α} {es' : List Ex}
    (h : eraseAssign (.const .nil) isLocal ts es (positions ms) = some (ts', es')) :
    ∃ ks : List Bool, ks.length = ts.length ∧ (∀ i : Nat, ks[i]? = some true → ms[i]? = some true) ∧ ts' = unmarked ks ts ∧
      ∀ s, given w lit ρ ts'.length es' s = (given w lit ρ ts.length es s).map fun p => (unmarked ks p.1, p.2) := by
  rw [eraseAssign_eq _ _ _ _ _ hl] at h
  refine ⟨usedMarks ms es.length, by rw [usedMarks_length, hl], ?_, ?_⟩
  · intro i hi
    unfold usedMarks at hi
    split at hi
    · rename_i hcond
      have hlen : i < ms.length := by
        have h1 := (List.getElem?_eq_some_iff.1 hi).1
        have h2 := usedMarks_length ms es.length
        unfold usedMarks at h2
        rw [if_pos hcond] at h2
        rwa [h2] at h1
      rw [List.getElem?_eq_getElem hlen, all_marked hcond.2 _ (List.getElem_mem _)]
    · exact hi
  · have key := fun s => erase_values (w := w) (lit := lit) (ρ := ρ) (usedMarks ms es.length) ts es s (by rw [usedMarks_length, hl])
      (used_erasedConst hc) (used_tailOk ht) (used_noExpose hl hn)
    revert h key
    generalize unmarked (usedMarks ms es.length) es = us
    generalize hut : unmarked (usedMarks ms es.length) ts = ut
    intro h key
    simp only at h
    split at h
    · cases h
    · rename_i h0
      split at h
      · rename_i h1
        simp only [Option.some.injEq, Prod.mk.injEq] at h
        obtain ⟨rfl, rfl⟩ := h
        have hus : us = [] := by cases us <;> simp_all
        subst hus
        refine ⟨rfl, fun s => ?_⟩
        rw [← key s]
        cases ut with
        | nil => simp at h0
        | cons a ut => exact given_nil _ _ hlit
      · simp only [Option.some.injEq, Prod.mk.injEq] at h
        obtain ⟨rfl, rfl⟩ := h
        exact ⟨rfl, key⟩

/-- The same in full when only the last source may give several values. -/
theorem C25_values {w : W V S} {lit : LV → Option V} {ρ : Nat → Option Nat} (hlit : lit .nil = some (w.inj .nil))
    (isLocal : Bool) (ts : List α) (es : List Ex) (ms : List Bool) (hl : ms.length = ts.length) (hc : ErasedConst w lit ρ ms es)
    (ht : TailOk ms es) (ho : OneEach es) {ts' : List α} {es' : List Ex}
    (h : eraseAssign (.const .nil) isLocal ts es (positions ms) = some (ts', es')) :
    ∃ ks : List Bool, ks.length = ts.length ∧ (∀ i : Nat, ks[i]? = some true → ms[i]? = some true) ∧ ts' = unmarked ks ts ∧
      ∀ s, given w lit ρ ts'.length es' s = (given w lit ρ ts.length es s).map fun p => (unmarked ks p.1, p.2) :=
  C25_values_partial hlit isLocal ts es ms hl hc ht (noExpose_of_oneEach _ _ _ ho) h

/-- A statement that disappears assigned marked targets only, and had no effects. -/
theorem C25_gone {w : W V S} {lit : LV → Option V} {ρ : Nat → Option Nat} (isLocal : Bool) (ts : List α) (es : List Ex) (ms : List Bool)
    (hl : ms.length = ts.length) (hc : ErasedConst w lit ρ ms es) (h : eraseAssign (.const .nil) isLocal ts es (positions ms) = none) :
    (∀ m ∈ ms, m = true) ∧ ∀ s, ∃ vs, w.args lit ρ (exList es) s = some (vs, s) := by
  rw [eraseAssign_eq _ _ _ _ _ hl] at h
  simp only at h
  split at h
  · rename_i hemp
    simp only [Bool.and_eq_true, List.isEmpty_iff] at hemp
    obtain ⟨h1, h2⟩ := hemp
    have hall : ∀ m ∈ ms, m = true := by
      have := count_unmarked _ _ (by rw [usedMarks_length, hl]) h1
      unfold usedMarks at this
      split at this
      · rename_i hcond; exact all_marked hcond.2
      · exact all_marked (by rw [positions_length]; exact this)
    refine ⟨hall, ?_⟩
    have hc' := used_erasedConst hc
    clear hall h1 hc hl h
    generalize usedMarks ms es.length = ks at h2 hc'
    clear ms
    induction ks generalizing es with
    | nil => cases es with
      | nil => intro s; exact ⟨[], rfl⟩
      | cons e es => simp [unmarked] at h2
    | cons k ks ih =>
      cases es with
      | nil => intro s; exact ⟨[], rfl⟩
      | cons e es =>
        cases k with
        | false => simp [unmarked] at h2
        | true =>
          obtain ⟨⟨v, hv⟩, hc'⟩ := hc'
          have ih := ih es h2 hc'
          intro s
          cases es with
          | nil => exact ⟨[v], by simp only [exList, W.args, hv]⟩
          | cons e' es =>
            obtain ⟨vs, hvs⟩ := ih s
            refine ⟨v :: vs, ?_⟩
            rw [args_cons2]
            have h1 : oneVal w lit ρ e s = some (v, s) := by simp only [oneVal, hv]; rfl
            simp only [h1, Option.bind_some, hvs, Option.map_some]
  · split at h <;> cases h

/-- The assertion at the end of the erasure holds: a statement that remains has targets. -/
theorem C25_no_assert (isLocal : Bool) (ts : List α) (es : List Ex) (ms : List Bool) (hl : ms.length = ts.length) (hne : ts ≠ [])
    {ts' : List α} {es' : List Ex} (h : eraseAssign (.const .nil) isLocal ts es (positions ms) = some (ts', es')) : ts' ≠ [] := by
  rw [eraseAssign_eq _ _ _ _ _ hl] at h
  intro hnil
  simp only at h
  split at h
  · cases h
  · rename_i h0
    have h1 : unmarked (usedMarks ms es.length) ts = [] := by
      split at h <;> simp only [Option.some.injEq, Prod.mk.injEq] at h
      · rw [h.1, hnil]
      · rw [h.1, hnil]
    have h2 := used_nonempty (es := es) hl h1 hne
    simp [h1, h2] at h0

/-- Targets `visit_assign` marks have constant sources, and it keeps targets fed by the extra values of the last source. -/
theorem C25_marked {w : W V S} {c : FoldCtx} {arith : Bool} (hw : w.Ok c.lang arith) (hΓ : ConstsHold w c) (ρ : Nat → Option Nat)
    (ts : List AssignTarget) (es : List Ex) (hg : ∀ e ∈ es, e.Good c.lang) (hs : ∀ e ∈ es, e.Safe true) {fs : List (Ex × Option LV)}
    (h : es.mapM c.ex = some fs) (chars : Bool) :
    let ms := marks chars (lastMulti (fs.map (·.1))) ts (fs.map (·.2))
    ms.length = ts.length ∧ ErasedConst w (litOf w c.lang) ρ ms (fs.map (·.1)) ∧ TailOk ms (fs.map (·.1)) := by
  intro ms
  have hlen : ∀ (b : Bool) (ts : List AssignTarget) (ks : List (Option LV)), (marks chars b ts ks).length = ts.length := by
    intro b ts
    induction ts with
    | nil => intro ks; rfl
    | cons t ts ih => intro ks; cases ks <;> simp [marks, ih]
  refine ⟨hlen _ _ _, ?_, ?_⟩
  · have : ∀ (b : Bool) (ts : List AssignTarget) (es : List Ex) (fs : List (Ex × Option LV)), (∀ e ∈ es, e.Good c.lang) →
        (∀ e ∈ es, e.Safe true) → es.mapM c.ex = some fs →
        ErasedConst w (litOf w c.lang) ρ (marks chars b ts (fs.map (·.2))) (fs.map (·.1)) := by
      intro b ts
      induction ts with
      | nil => intro es fs _ _ _; simp [marks, ErasedConst]
      | cons t ts ih =>
        intro es fs hg hs h
        cases es with
        | nil => simp at h; subst h; simp [ErasedConst]
        | cons e es =>
          simp only [List.mapM_cons, Option.bind_eq_bind, Option.bind_eq_some_iff, Option.pure_def, Option.some.injEq] at h
          obtain ⟨f, hf, fs', hfs, rfl⟩ := h
          have ih := ih es fs' (fun e he => hg e (List.mem_cons_of_mem _ he)) (fun e he => hs e (List.mem_cons_of_mem _ he)) hfs
          have hok := ex_ok (ρ := ρ) hw hΓ e (hg e (by simp)) (Ex.safe_mono (hs e (by simp))) hf
          simp only [List.map_cons, marks]
          cases hb : (t.canErase && markable chars t f.2) with
          | false => exact ih
          | true =>
            refine ⟨?_, ih⟩
            cases hk : f.2 with
            | none => simp [hk, markable] at hb
            | some v =>
              obtain ⟨x, hx⟩ := (hok.good v hk).1
              exact ⟨w.inj x, fun s => by rw [hok.all (hs e (by simp)) s]; exact hok.known v x hk hx s⟩
    exact this _ ts es fs hg hs h
  · have : ∀ (b : Bool) (ts : List AssignTarget) (fs : List (Ex × Option LV)), b = lastMulti (fs.map (·.1)) →
        TailOk (marks chars b ts (fs.map (·.2))) (fs.map (·.1)) := by
      intro b ts
      induction ts with
      | nil =>
        intro fs hb
        match fs with
        | [] => simp [TailOk]
        | [f] => simp [marks, TailOk]
        | _ :: _ :: _ => simp [marks, TailOk]
      | cons t ts ih =>
        intro fs hb
        match fs with
        | [] => simp [TailOk]
        | [f] =>
          simp only [List.map_cons, List.map_nil, marks, TailOk, List.tail_cons]
          intro hm m hmem
          have hb' : b = true := by
            rw [hb]
            simp only [lastMulti, List.map_cons, List.map_nil, List.getLast?_singleton]
            revert hm
            cases f.1 <;> simp [Ex.multi]
          subst hb'
          clear ih
          induction ts with
          | nil => simp [marks] at hmem
          | cons t ts ih =>
            simp only [marks, List.mem_cons] at hmem
            rcases hmem with h | h
            · simpa using h
            · exact ih h
        | f :: f' :: fs =>
          simp only [List.map_cons, marks, TailOk]
          exact ih (f' :: fs) (by rw [hb]; simp [lastMulti])
    exact this _ ts fs rfl

/-! ### Examples -/

/-- `local a, b, c = 1, f(), 2` with `a` and `c` erased: `local b = f()`. -/
example : eraseAssign (Ex.const .nil) true ["a", "b", "c"] [.const (.fix 0x10000), .call 1 .nil, .const (.fix 0x20000)] (positions [true, false, true]) =
    some (["b"], [.call 1 .nil]) := rfl

/-- `local a, b = 1, 2, f()` with both erased keeps `b` for the sake of `f()`. -/
example : eraseAssign (Ex.const .nil) true ["a", "b"] [.const (.fix 0x10000), .const (.fix 0x20000), .call 1 .nil] (positions [true, true]) =
    some (["b"], [.const (.fix 0x20000), .call 1 .nil]) := rfl

/-- `a, b = 1` with `a` erased: `b = nil`. -/
example : eraseAssign (Ex.const .nil) false ["a", "b"] [.const (.fix 0x10000)] (positions [true, false]) = some (["b"], [.const .nil]) := rfl

/-- `local a, b, c = x, 1, f()` with `b` erased meets the hypotheses. -/
example : ErasedConst (demoW .pico8) (litOf (demoW .pico8) .pico8) (fun _ => none) [false, true, false]
      [.var 0, .const (.fix 0x10000), .call 1 .nil] ∧ TailOk [false, true, false] [.var 0, .const (.fix 0x10000), .call 1 .nil] ∧
    OneEach [.var 0, .const (.fix 0x10000), .call 1 .nil] := by
  refine ⟨?_, by simp [TailOk], by simp [OneEach, Ex.multi]⟩
  simp only [ErasedConst, and_true]
  exact ⟨.num 0x10000#32, fun s => by simp [W.vals, demoW, litOf, LV.repr]⟩

theorem canErase_iff {t : AssignTarget} : t.canErase = true ↔ t.isVar = true ∧ t.attr ≠ some false ∧
    (t.isLocal = true ∧ t.reassigned = 0 ∨ t.isLocal = false ∧ t.attr = some true ∧ t.reassigned ≤ 1 ∧ t.builtin = false) := by
  obtain ⟨a, b, c, d, e⟩ := t
  simp only [AssignTarget.canErase]
  cases a <;> cases b <;> cases e <;> simp <;> grind

theorem markable_iff {chars : Bool} {t : AssignTarget} {v : LV} : markable chars t (some v) = true ↔
    t.attr = some true ∨ chars = false ∧ ∀ s, v ≠ .str s := by
  cases v <;> cases chars <;> simp [markable]

/-- Only targets that may be erased are marked: variables that are not refused by the user and are either locals assigned nowhere else, or
globals the user declared constant that are assigned at most once and not built in.  Constants that are strings, or any with the focus on
characters, only where the user asked. -/
theorem C25_marked_only (chars last : Bool) : ∀ (ts : List AssignTarget) (ks : List (Option LV)) (i : Nat),
    (marks chars last ts ks)[i]? = some true → ∃ t v, ts[i]? = some t ∧ t.isVar = true ∧ t.attr ≠ some false ∧
      (t.isLocal = true ∧ t.reassigned = 0 ∨ t.isLocal = false ∧ t.attr = some true ∧ t.reassigned ≤ 1 ∧ t.builtin = false) ∧
      (ks[i]? = some (some v) ∨ ks.length ≤ i ∧ last = false ∧ v = .nil) ∧
      (t.attr = some true ∨ chars = false ∧ ∀ s, v ≠ .str s)
  | [], ks, i, h => by simp [marks] at h
  | t :: ts, k :: ks, 0, h => by
    simp only [marks, List.getElem?_cons_zero, Option.some.injEq, Bool.and_eq_true] at h
    obtain ⟨h1, h2⟩ := h
    cases k with
    | none => simp [markable] at h2
    | some v =>
      refine ⟨t, v, rfl, canErase_iff.1 h1 |>.1, (canErase_iff.1 h1).2.1, (canErase_iff.1 h1).2.2, .inl rfl, markable_iff.1 h2⟩
  | t :: ts, [], 0, h => by
    simp only [marks, List.getElem?_cons_zero, Option.some.injEq, Bool.and_eq_true, Bool.not_eq_true'] at h
    obtain ⟨⟨h1, h3⟩, h2⟩ := h
    exact ⟨t, .nil, rfl, (canErase_iff.1 h1).1, (canErase_iff.1 h1).2.1, (canErase_iff.1 h1).2.2, .inr ⟨by simp, h3, rfl⟩, markable_iff.1 h2⟩
  | t :: ts, k :: ks, i + 1, h => by
    obtain ⟨t', v, h1, h2, h3, h4, h5, h6⟩ := C25_marked_only chars last ts ks i (by simpa [marks] using h)
    exact ⟨t', v, by simpa using h1, h2, h3, h4, by simpa using h5, h6⟩
  | t :: ts, [], i + 1, h => by
    obtain ⟨t', v, h1, h2, h3, h4, h5, h6⟩ := C25_marked_only chars last ts [] i (by simpa [marks] using h)
    refine ⟨t', v, by simpa using h1, h2, h3, h4, ?_, h6⟩
    rcases h5 with h5 | h5
    · simp at h5
    · exact .inr ⟨by simp, h5.2⟩

example : marks false false [⟨true, true, 0, none, false⟩, ⟨true, true, 1, none, false⟩, ⟨true, true, 0, none, false⟩]
    [some (.str []), some (.fix 0), none] = [false, false, false] ∧
    marks false false [⟨true, true, 0, none, false⟩, ⟨true, false, 1, some true, false⟩] [some (.fix 0), some (.str [])] = [true, true] := by
  decide

/-- `local a, b, c = g(), 1` where `b` is constant and `c` is not becomes `local a, c = g()`: `c` is given the second value of `g()`
instead of nil. -/
theorem C25_expose_counterexample :
    ∃ ts' es', eraseAssign (Ex.const .nil) true ["a", "b", "c"] [.call 1 .nil, .const (.fix 0x10000)] (positions [false, true, false]) = some (ts', es') ∧
      ts' = ["a", "c"] ∧ es' = [.call 1 .nil] ∧ ∃ (w : W Val Nat) (lit : LV → Option Val), w.Ok .pico8 true ∧
      ∀ ρ s, given w lit ρ 3 [.call 1 .nil, .const (.fix 0x10000)] s = some ([.bool true, .num 0x10000#32, .nil], s) ∧
        given w lit ρ 2 es' s = some ([.bool true, .bool false], s) := by
  refine ⟨_, _, rfl, rfl, rfl, { demoW .pico8 with call := fun _ _ _ s => some ([.bool true, .bool false], s) },
    litOf (demoW .pico8) .pico8, ?_, fun ρ s => ⟨?_, ?_⟩⟩
  · exact ⟨(demoW_ok .pico8).truthy, (demoW_ok .pico8).un, (demoW_ok .pico8).bin, (demoW_ok .pico8).builtin⟩
  · simp [given, exList, W.args, W.vals, W.adjust, W.first, litOf, LV.repr, demoW]
  · simp [given, exList, W.args, W.vals, W.adjust]

end Verif
