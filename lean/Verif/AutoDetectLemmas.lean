import Verif.AutoDetect
import Verif.TextLemmas
import Verif.P8SourceLemmas
import Verif.Props.LuaStr
/-! Lemmas about recognising files. -/
namespace Verif.Auto

open Utf8Spec

theorem char_first {c : Nat} {u r : List Nat} (h : Utf8Spec.Char c u) : ∀ s, u ++ r ≠ 0x89 :: s := by
  intro s e
  cases h with
  | one h => simp at e; omega
  | two => simp at e; omega
  | three => simp at e; omega
  | four => simp at e; omega

/-- The bytes of text are no image. -/
theorem text_not_png {t bs : List Nat} (h : Text t bs) : pngHeader.isPrefixOf bs = false := by
  cases hp : pngHeader.isPrefixOf bs with
  | false => rfl
  | true =>
    rw [List.isPrefixOf_iff_prefix] at hp
    obtain ⟨s, hs⟩ := hp
    cases h with
    | nil => cases hs
    | cons h ht => exact absurd hs.symm (char_first h _)

/-- Recognition of text. -/
def autoText (text : List Nat) : Call :=
  if sP8Prefix.isPrefixOf text || (headerLine sLua).isPrefixOf text then ⟨.source, text⟩
  else if clipPrefix.isPrefixOf text then ⟨.clip, pyRstrip text⟩
  else if urlPrefix.isPrefixOf text then ⟨.url, pyRstrip text⟩
  else ⟨.raw, text⟩

theorem auto_text {t bs : List Nat} (h : Text t bs) : auto bs = autoText t := by
  unfold auto
  rw [text_not_png h, LuaStr.C60_utf8 h |>.1]
  rfl

theorem text_scalar {t bs : List Nat} (h : Text t bs) : ∀ c ∈ t, Scalar c := by
  induction h with
  | nil => simp
  | cons h _ ih =>
    intro x hx
    rcases List.mem_cons.1 hx with rfl | hx
    · cases h with
      | one => unfold Scalar; omega
      | two => unfold Scalar; omega
      | three _ _ _ _ hs => exact hs
      | four => unfold Scalar; omega
    · exact ih x hx

theorem readText_text {t bs : List Nat} (h : Text t bs) : readText bs = some (univNl t) := by
  unfold readText
  rw [LuaStr.C60_utf8 h |>.1, if_neg]
  intro ha
  rw [List.any_eq_true] at ha
  obtain ⟨c, hc, hb⟩ := ha
  have := text_scalar h c hc
  unfold Scalar at this
  simp only [Bool.and_eq_true, decide_eq_true_eq] at hb
  omega

theorem univNl_cons {c : Nat} (h : c ≠ 13) (cs : List Nat) : univNl (c :: cs) = c :: univNl cs := by
  rw [univNl.eq_4]
  · intro _ e; exact absurd e h
  · intro e; exact absurd e h

theorem univNl_id {t : List Nat} (h : 13 ∉ t) : univNl t = t := by
  induction t with
  | nil => rfl
  | cons c t ih =>
    simp only [List.mem_cons, not_or] at h
    rw [univNl_cons (fun e => h.1 e.symm), ih h.2]

theorem univNl_no_cr (t : List Nat) : 13 ∉ univNl t := by
  induction t using univNl.induct with
  | case1 => simp [univNl]
  | case2 cs ih => rw [univNl]; simp [ih]
  | case3 cs h ih =>
    rw [univNl.eq_3 _ h]; simp [ih]
  | case4 c cs h1 h2 ih =>
    rw [univNl.eq_4 _ _ h1 h2]
    have : c ≠ 13 := fun e => h2 e
    simp only [List.mem_cons, not_or]
    exact ⟨fun e => this e.symm, ih⟩

/-- Text in which every carriage return is part of a line end. -/
def Crlf (t : List Nat) : Prop := ∀ a b, t = a ++ 13 :: b → b.head? = some 10

theorem Crlf.tail {c : Nat} {t : List Nat} (h : Crlf (c :: t)) : Crlf t := fun a b e => h (c :: a) b (by rw [e]; rfl)

/-- The lines of pieces: all but the last are ended by a line feed. -/
def unCr (pieces : List (List Nat)) : List (List Nat) := pieces.dropLast.map dropCr ++ pieces.drop (pieces.length - 1)

theorem unCr_cons {l : List Nat} {ls : List (List Nat)} (h : ls ≠ []) : unCr (l :: ls) = dropCr l :: unCr ls := by
  cases ls with
  | nil => contradiction
  | cons m ls => simp [unCr]

theorem unCr_one (l : List Nat) : unCr [l] = [l] := rfl

theorem dropCr_cons {c : Nat} (h : c ≠ 13) (l : List Nat) : dropCr (c :: l) = c :: dropCr l := by
  unfold dropCr
  cases l with
  | nil => simp [h]
  | cons d l =>
    rw [List.getLast?_cons_cons]
    split <;> simp

theorem unCr_map_cons {c : Nat} (hc : c ≠ 13) (l : List Nat) (ls : List (List Nat)) {m : List Nat} {ms : List (List Nat)}
    (h : unCr (l :: ls) = m :: ms) : unCr ((c :: l) :: ls) = (c :: m) :: ms := by
  cases ls with
  | nil => rw [unCr_one] at h ⊢; simp at h; simp [h]
  | cons k ls =>
    rw [unCr_cons (by simp)] at h ⊢
    simp only [List.cons.injEq] at h
    rw [dropCr_cons hc, h.1, h.2]

theorem splitNl_univ {t : List Nat} (h : Crlf t) : unCr (splitNl t) = splitNl (univNl t) := by
  induction t using univNl.induct with
  | case1 => rfl
  | case2 cs ih =>
    have e : splitNl (13 :: 10 :: cs) = [13] :: splitNl cs := by simp [splitNl]
    rw [univNl, e, unCr_cons (splitNl_ne_nil _), ih h.tail.tail]
    simp [splitNl, dropCr]
  | case3 cs hn ih =>
    have := h [] cs rfl
    cases cs with
    | nil => cases this
    | cons d cs => simp at this; subst this; exact absurd rfl (hn cs)
  | case4 c cs h1 h2 ih =>
    rw [univNl.eq_4 _ _ h1 h2]
    have ih := ih h.tail
    unfold splitNl
    by_cases hc : c = 10
    · rw [if_pos hc, if_pos hc, unCr_cons (splitNl_ne_nil _), ih]; rfl
    · rw [if_neg hc, if_neg hc]
      cases hs : splitNl cs with
      | nil => exact absurd hs (splitNl_ne_nil _)
      | cons l ls =>
        cases hu : splitNl (univNl cs) with
        | nil => exact absurd hu (splitNl_ne_nil _)
        | cons m ms =>
          rw [hs, hu] at ih
          exact unCr_map_cons (fun e => h2 e) l ls ih

theorem unCr_id {ls : List (List Nat)} (h : ∀ l ∈ ls, 13 ∉ l) : unCr ls = ls := by
  induction ls with
  | nil => rfl
  | cons l ls ih =>
    cases ls with
    | nil => rfl
    | cons m ls =>
      rw [unCr_cons (by simp), ih fun x hx => h x (List.mem_cons_of_mem _ hx)]
      congr 1
      unfold dropCr
      rw [if_neg]
      exact fun e => h l (by simp) (List.mem_of_getLast? e)

theorem splitNl_sub {t l : List Nat} {c : Nat} (hl : l ∈ splitNl t) (hc : c ∈ l) : c ∈ t := by
  rw [← joinNl_splitNl t]
  generalize splitNl t = ls at hl
  induction ls with
  | nil => simp at hl
  | cons a ls ih =>
    cases ls with
    | nil => simp at hl; subst hl; exact hc
    | cons b ls =>
      rw [joinNl, List.mem_append]
      rcases List.mem_cons.1 hl with rfl | hl
      · exact .inl hc
      · exact .inr (List.mem_cons_of_mem _ (ih hl))

theorem p8Split_univ {t : List Nat} (h : Crlf t) : p8SplitLines (univNl t) = p8SplitLines t := by
  have e : ∀ s, p8SplitLines s = if (unCr (splitNl s)).getLast? = some [] then (unCr (splitNl s)).dropLast else unCr (splitNl s) := fun _ => rfl
  rw [e, e, splitNl_univ h, unCr_id fun l hl hc => univNl_no_cr t (splitNl_sub hl hc)]

theorem prefix_univ {p : List Nat} (h10 : 10 ∉ p) (h13 : 13 ∉ p) : ∀ t, p.isPrefixOf (univNl t) = p.isPrefixOf t := by
  induction p with
  | nil => intro t; simp
  | cons a p ih =>
    simp only [List.mem_cons, not_or] at h10 h13
    intro t
    match t with
    | [] => rfl
    | 13 :: 10 :: cs =>
      have e1 : (a == 10) = false := by simpa using fun e => h10.1 e.symm
      have e2 : (a == 13) = false := by simpa using fun e => h13.1 e.symm
      simp [univNl, List.isPrefixOf, e1, e2]
    | c :: cs =>
      by_cases hc : c = 13
      · subst hc
        have e1 : (a == 10) = false := by simpa using fun e => h10.1 e.symm
        have e2 : (a == 13) = false := by simpa using fun e => h13.1 e.symm
        have : ∃ r, univNl (13 :: cs) = 10 :: r := by
          cases cs with
          | nil => exact ⟨_, rfl⟩
          | cons d cs =>
            by_cases hd : d = 10
            · subst hd; exact ⟨_, rfl⟩
            · exact ⟨_, univNl.eq_3 _ (by intro _ e; cases e; exact hd rfl)⟩
        obtain ⟨r, hr⟩ := this
        rw [hr]
        simp [List.isPrefixOf, e1, e2]
      · rw [univNl_cons hc]
        simp only [List.isPrefixOf]
        rw [ih h10.2 h13.2]

theorem isPrefixOf_take (p t : List Nat) : (t.take p.length == p) = p.isPrefixOf t := by
  rw [Bool.eq_iff_iff, beq_iff_eq, List.isPrefixOf_iff_prefix]
  constructor
  · intro h; rw [← h]; exact List.take_prefix _ _
  · rintro ⟨s, rfl⟩; simp

theorem readSource_univ {t : List Nat} (h : Crlf t) (version : Nat) (raw : Bool) : readSource version raw (univNl t) = readSource version raw t := by
  unfold readSource
  have e1 : ((univNl t).take 16 == sP8Prefix) = (t.take 16 == sP8Prefix) := by
    rw [show (16 : Nat) = sP8Prefix.length from rfl, isPrefixOf_take, isPrefixOf_take, prefix_univ (by decide) (by decide)]
  have e2 : ((univNl t).take 7 == headerLine sLua) = (t.take 7 == headerLine sLua) := by
    rw [show (7 : Nat) = (headerLine sLua).length from rfl, isPrefixOf_take, isPrefixOf_take, prefix_univ (by decide) (by decide)]
  rw [e1, e2, p8Split_univ h]

/-- A final line end makes no difference. -/
theorem p8Split_final {s : List Nat} (h0 : s ≠ []) (h1 : s.getLast? ≠ some 10) (h2 : s.getLast? ≠ some 13) :
    p8SplitLines (s ++ [10]) = p8SplitLines s := by
  have e : ∀ s, p8SplitLines s = if (unCr (splitNl s)).getLast? = some [] then (unCr (splitNl s)).dropLast else unCr (splitNl s) := fun _ => rfl
  obtain ⟨init, last, hs⟩ : ∃ init last, splitNl s = init ++ [last] := by
    rcases List.eq_nil_or_concat (splitNl s) with h | ⟨i, l, h⟩
    · exact absurd h (splitNl_ne_nil s)
    · exact ⟨i, l, by simpa using h⟩
  have hu : ∀ (init : List (List Nat)) (last : List Nat), unCr (init ++ [last]) = init.map dropCr ++ [last] := by
    intro init last
    unfold unCr
    simp
  have hj := joinNl_splitNl s
  have hjl : ∀ (init : List (List Nat)) (last : List Nat), ∃ pre, joinNl (init ++ [last]) = pre ++ last ∧ (pre = [] ∨ pre.getLast? = some 10) := by
    intro init last
    induction init with
    | nil => exact ⟨[], rfl, .inl rfl⟩
    | cons a init ih =>
      obtain ⟨pre, h1, h2⟩ := ih
      refine ⟨a ++ 10 :: pre, ?_, .inr ?_⟩
      · rw [List.cons_append, joinNl_cons (by simp), h1]; simp
      · rw [List.getLast?_append]
        rcases h2 with rfl | h2
        · rfl
        · rw [List.getLast?_cons, h2]; rfl
  obtain ⟨pre, hp, hpre⟩ := hjl init last
  rw [hs, hp] at hj
  have hlast : last ≠ [] := by
    rintro rfl
    rw [List.append_nil] at hj
    subst hj
    rcases hpre with rfl | h
    · exact h0 rfl
    · exact h1 h
  have hcr : dropCr last = last := by
    unfold dropCr
    rw [if_neg]
    intro hl
    refine h2 ?_
    rw [← hj, List.getLast?_append, hl]
    rfl
  rw [e, e, splitNl_append, hs, hu]
  have : (init ++ [last]) ++ splitNl [] = (init ++ [last]) ++ [[]] := rfl
  rw [this, hu]
  simp [hcr, hlast]

theorem rstrip_append {t w : List Nat} (h : ∀ c, t.getLast? = some c → pyIsSpace c = false) (hw : ∀ c ∈ w, pyIsSpace c = true) :
    pyRstrip (t ++ w) = t := by
  unfold pyRstrip
  rw [List.reverse_append, List.dropWhile_append_of_pos (by simpa using hw)]
  rcases List.eq_nil_or_concat t with rfl | ⟨i, x, rfl⟩
  · rfl
  · have : pyIsSpace x = false := h x (by simp)
    simp [this]

end Verif.Auto
