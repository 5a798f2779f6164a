import Verif.Errors
import Verif.Props.SourceMap
import Verif.TextLemmas
/-!
C97: errors and warnings as they are printed.
-/
namespace Verif.Errors

theorem insert_perm (x : Err) (l : List Err) : (insertErr x l).Perm (x :: l) := by
  induction l with
  | nil => exact .refl _
  | cons y l ih =>
    unfold insertErr
    split
    · exact (ih.cons y).trans (.swap x y l)
    · exact .refl _

theorem sort_perm (l : List Err) : (sortErrs l).Perm l := by
  induction l with
  | nil => exact .refl _
  | cons x l ih => exact (insert_perm x _).trans (ih.cons x)

theorem insert_sorted (x : Err) {l : List Err} (h : l.Pairwise (fun a b => a.idx ≤ b.idx)) :
    (insertErr x l).Pairwise (fun a b => a.idx ≤ b.idx) := by
  induction l with
  | nil => simp [insertErr]
  | cons y l ih =>
    rw [List.pairwise_cons] at h
    unfold insertErr
    split
    · rename_i hlt
      rw [List.pairwise_cons]
      refine ⟨fun z hz => ?_, ih h.2⟩
      rcases List.mem_cons.mp ((insert_perm x l).mem_iff.mp hz) with rfl | hz
      · omega
      · exact h.1 z hz
    · rename_i hge
      rw [List.pairwise_cons, List.pairwise_cons]
      refine ⟨fun z hz => ?_, h⟩
      rcases List.mem_cons.mp hz with rfl | hz
      · omega
      · have := h.1 z hz; omega

theorem sort_sorted (l : List Err) : (sortErrs l).Pairwise (fun a b => a.idx ≤ b.idx) := by
  induction l with
  | nil => exact .nil
  | cons x l ih => exact insert_sorted x ih

theorem insert_filter (x : Err) (l : List Err) (i : Nat) :
    (insertErr x l).filter (fun e => e.idx == i) = (x :: l).filter (fun e => e.idx == i) := by
  induction l with
  | nil => rfl
  | cons y l ih =>
    unfold insertErr
    split
    · rename_i hlt
      rw [List.filter_cons, ih]
      by_cases hx : x.idx = i
      · have hy : y.idx ≠ i := by omega
        simp [hx, hy]
      · simp [List.filter_cons, hx]
    · rfl

theorem sort_filter (l : List Err) (i : Nat) : (sortErrs l).filter (fun e => e.idx == i) = l.filter (fun e => e.idx == i) := by
  induction l with
  | nil => rfl
  | cons x l ih => rw [sortErrs, insert_filter, List.filter_cons, List.filter_cons, ih]

/-- A line that is printed for an error: path, line and column counted from one, and the message. -/
def Tells (shown : List Nat → List Nat) (e : Err) (line : Nat) (col : Nat) (out : List Nat) : Prop :=
  ∃ s l c, e.src = some s ∧ parseNat l = some line ∧ parseNat c = some col ∧ out = shown s.path ++ [58] ++ l ++ [58] ++ c ++ [58, 32] ++ e.msg

/-- C97: the line of an error in a source has the path, the line and the column where it is, counted from one, and its message. -/
theorem C97_line (shown : List Nat → List Nat) {e : Err} {s : Src} (hs : e.src = some s) (h : e.idx ≤ s.text.length) :
    ∃ line col, Tells shown e line col (format shown e) ∧ 1 ≤ line ∧ 1 ≤ col ∧ IsLineCol (s.text.take e.idx) (line - 1) ((col : Int) - 1) := by
  have hl := C44_line_col s.text e.idx h
  have hc : 0 ≤ (getLineCol s.text e.idx 0).2 := by obtain ⟨_, _, _, _, _, _, k⟩ := hl; omega
  refine ⟨(getLineCol s.text e.idx 0).1 + 1, ((getLineCol s.text e.idx 0).2 + 1).natAbs,
    ⟨s, natDigits ((getLineCol s.text e.idx 0).1 + 1), natDigits ((getLineCol s.text e.idx 0).2 + 1).natAbs, hs, parseNat_natDigits _,
      parseNat_natDigits _, ?_⟩, by omega, by omega, ?_⟩
  · have h0 : ¬ ((getLineCol s.text e.idx 0).2 + 1 < 0) := by omega
    simp [format, location, hs, colText, h0]
  · have e1 : (getLineCol s.text e.idx 0).1 + 1 - 1 = (getLineCol s.text e.idx 0).1 := by omega
    have e2 : ((((getLineCol s.text e.idx 0).2 + 1).natAbs : Nat) : Int) - 1 = (getLineCol s.text e.idx 0).2 := by omega
    rw [e1, e2]; exact hl

/-- The value of an upper case hexadecimal digit. -/
def hexDigitVal (c : Nat) : Option Nat := if 48 ≤ c ∧ c ≤ 57 then some (c - 48) else if 65 ≤ c ∧ c ≤ 70 then some (c - 55) else none

/-- C97, with tabs: the line of an error has the path, the tab as one hexadecimal digit, the line and the column within the tab, counted from
one, and the message.  (Missing: positions inside of a tab break, see C44.) -/
theorem C97_tabbed_partial (shown : List Nat → List Nat) {e : Err} {s : Src} (hs : e.src = some s) (h : e.idx ≤ s.text.length)
    (hin : ¬ InsideBreak s.text e.idx) :
    ∃ (t : Nat) (l c : List Nat) (tab line col : Nat), formatTabbed shown e = shown s.path ++ " (tab ".toList.map Char.toNat ++ [t] ++ ", line ".toList.map Char.toNat ++ l ++
        ", col ".toList.map Char.toNat ++ c ++ "): ".toList.map Char.toNat ++ e.msg ∧
      hexDigitVal t = some tab ∧ parseNat l = some (line + 1) ∧ parseNat c = some (col + 1) ∧
      ∃ tabs rest k, TabsBefore tabs s.text rest ∧ rest = s.text.drop k ∧ k ≤ e.idx ∧ tab = tabs.length ∧
        (tabs.length = 15 ∨ tabs.length < 15 ∧ ∀ i < e.idx - k, ¬ tabBreak <+: rest.drop i) ∧ IsLineCol (rest.take (e.idx - k)) line col := by
  obtain ⟨tabs, rest, k, h1, h2, h3, h4, h5, h6⟩ := C44_tab_partial s.text e.idx h hin
  have hc : 0 ≤ (getTabLineCol s.text e.idx).2.2 := by obtain ⟨_, _, _, _, _, _, k⟩ := h6; omega
  have ht : (getTabLineCol s.text e.idx).1 ≤ 15 := by omega
  have key : ∀ n : Nat, n ≤ 15 → ∃ d, tabText n = [d] ∧ hexDigitVal d = some n := by
    intro n hn
    have : ∀ n : Fin 16, tabText n.1 = [(tabText n.1).headD 0] ∧ hexDigitVal ((tabText n.1).headD 0) = some n.1 := by decide
    exact ⟨_, this ⟨n, by omega⟩⟩
  obtain ⟨d, d1, d2⟩ := key _ ht
  have h0 : ¬ ((getTabLineCol s.text e.idx).2.2 + 1 < 0) := by omega
  have hn : ((getTabLineCol s.text e.idx).2.2 + 1).natAbs = (getTabLineCol s.text e.idx).2.2.toNat + 1 := by omega
  refine ⟨d, natDigits ((getTabLineCol s.text e.idx).2.1 + 1), natDigits ((getTabLineCol s.text e.idx).2.2.toNat + 1), _,
    (getTabLineCol s.text e.idx).2.1, (getTabLineCol s.text e.idx).2.2.toNat, ?_, d2, parseNat_natDigits _, parseNat_natDigits _,
    tabs, rest, k, h1, h2, h3, h4, h5, ?_⟩
  · simp only [formatTabbed, hs, d1, colText, if_neg h0, hn]
    rfl
  · rw [Int.toNat_of_nonneg hc]; exact h6

example : formatTabbed id ⟨some ⟨[102], [120, 10, 121] ++ tabBreak ++ [97, 98, 10, 99, 100]⟩, 13, [109]⟩ =
    "f (tab 1, line 2, col 2): m".toList.map Char.toNat := by decide +kernel

/-- A later position is on a later line, or on the same line in a later column. -/
theorem lineCol_mono {a b : List Nat} {l l' : Nat} {c c' : Int} (h : IsLineCol a l c) (h' : IsLineCol (a ++ b) l' c') :
    l < l' ∨ l = l' ∧ c ≤ c' := by
  obtain ⟨p, q, e1, e2, e3, e4, e5⟩ := h
  by_cases hb : 10 ∈ b
  · left
    obtain ⟨p', q', f1, f2, -, f4, -⟩ := h'
    have k1 : (a ++ b).count 10 = p'.count 10 := by rw [f1, List.count_append, List.count_eq_zero_of_not_mem f2, Nat.add_zero]
    have k2 : a.count 10 = p.count 10 := by rw [e1, List.count_append, List.count_eq_zero_of_not_mem e2, Nat.add_zero]
    have k3 : 0 < b.count 10 := List.count_pos_iff.mpr hb
    rw [List.count_append] at k1
    omega
  · right
    have : IsLineCol (a ++ b) l (q ++ b).length :=
      ⟨p, q ++ b, by rw [e1, List.append_assoc], by simp [e2, hb], e3, e4, rfl⟩
    obtain ⟨k1, k2⟩ := C44_unique this h'
    refine ⟨k1, ?_⟩
    rw [← k2, e5, List.length_append]; omega

/-- The place of `a` is not after the place of `b`, if both are in the same source. -/
def NotAfter (a b : Err) : Prop :=
  ∀ s, a.src = some s → b.src = some s → ∀ l c l' c', IsLineCol (s.text.take a.idx) l c → IsLineCol (s.text.take b.idx) l' c' → l < l' ∨ l = l' ∧ c ≤ c'

/-- C97: each error is printed once, in an order where those of the same source are sorted by line and column, and those at the same
position are in the order in which they were found.  (Missing: that the errors of one source are together.) -/
theorem C97_printed_partial (shown : List Nat → List Nat) (errors : List Err) :
    ∃ order : List Err, order.Perm errors ∧ printed shown errors = order.map (format shown) ∧ order.Pairwise NotAfter ∧
      ∀ s i, order.filter (fun e => e.src == s && e.idx == i) = errors.filter (fun e => e.src == s && e.idx == i) := by
  refine ⟨sortErrs errors, sort_perm errors, rfl, (sort_sorted errors).imp ?_, ?_⟩
  · intro a b hab s _ _ l c l' c' h h'
    have e : s.text.take b.idx = s.text.take a.idx ++ (s.text.take b.idx).drop a.idx := by
      have := List.take_append_drop a.idx (s.text.take b.idx)
      rw [List.take_take, Nat.min_eq_left hab] at this
      exact this.symm
    rw [e] at h'
    exact lineCol_mono h h'
  · intro s i
    rw [← List.filter_filter, sort_filter, List.filter_filter]

/-- `ab⏎c`, with errors found in another order. -/
def demoSrc : Src := ⟨[102], [97, 98, 10, 99]⟩
example : printed id [⟨some demoSrc, 3, [121]⟩, ⟨some demoSrc, 1, [120]⟩, ⟨some demoSrc, 3, [122]⟩] =
    [[102, 58, 49, 58, 50, 58, 32, 120], [102, 58, 50, 58, 49, 58, 32, 121], [102, 58, 50, 58, 49, 58, 32, 122]] := by decide +kernel
example : Tells id ⟨some demoSrc, 3, [121]⟩ 2 1 (format id ⟨some demoSrc, 3, [121]⟩) :=
  ⟨demoSrc, [50], [49], rfl, by decide, by decide, by decide +kernel⟩

/-- C97 fails for carts with several files: the errors of the files are mixed by position, those of `f` are printed before and after that of `g`. -/
theorem C97_files_counterexample : ∃ (f g : Src) (errors : List Err), f.path ≠ g.path ∧ errors.map (·.src) = [some f, some f, some g] ∧
    printed id errors = [f.path ++ [58, 49, 58, 49, 58, 32], g.path ++ [58, 49, 58, 51, 58, 32], f.path ++ [58, 50, 58, 49, 58, 32]] :=
  ⟨demoSrc, ⟨[103], [97, 98, 99]⟩, [⟨some demoSrc, 0, []⟩, ⟨some demoSrc, 3, []⟩, ⟨some ⟨[103], [97, 98, 99]⟩, 2, []⟩], by decide, by decide,
    by decide +kernel⟩

end Verif.Errors
