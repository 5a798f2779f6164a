import Verif.Bbs
import Verif.Spec.Query
import Verif.Spec.Utf8
import Verif.Props.LuaStr
/-!
C96: the address of a cart of the BBS.
-/
namespace Verif.Bbs
open Query

theorem decode_plain {c : Nat} (h : c ≠ 37) (t : List Nat) : decode (c :: t) = (if c = 43 then 32 else c) :: decode t := by
  rw [decode]
  intro x y t' e
  exact absurd e h

theorem decode_hex {x y a b : Nat} (ha : hex x = some a) (hb : hex y = some b) (t : List Nat) :
    decode (37 :: x :: y :: t) = (16 * a + b) :: decode t := by
  rw [decode, ha, hb]

theorem hex_upper {n : Nat} (h : n < 16) : hex (upperHex n) = some n := by
  have : ∀ n : Fin 16, hex (upperHex n.1) = some n.1 := by decide
  exact this ⟨n, h⟩

/-- What is written for a byte has no `&`, `=`, `#`, space or character beyond ASCII. -/
theorem quote_chars {b : Nat} (h : b < 256) : ∀ c ∈ quoteByte b, 33 ≤ c ∧ c ≤ 126 ∧ c ≠ 38 ∧ c ≠ 61 ∧ c ≠ 35 := by
  have : ∀ b : Fin 256, ∀ c ∈ quoteByte b.1, 33 ≤ c ∧ c ≤ 126 ∧ c ≠ 38 ∧ c ≠ 61 ∧ c ≠ 35 := by decide +kernel
  exact this ⟨b, h⟩

theorem decode_quoteByte {b : Nat} (h : b < 256) (t : List Nat) : decode (quoteByte b ++ t) = b :: decode t := by
  unfold quoteByte
  split
  · rename_i e; subst e; exact decode_plain (by decide) t
  · split
    · rename_i hs
      have h37 : b ≠ 37 := by rintro rfl; revert hs; decide
      have h43 : b ≠ 43 := by rintro rfl; revert hs; decide
      show decode (b :: t) = _
      rw [decode_plain h37, if_neg h43]
    · show decode (37 :: _ :: _ :: t) = _
      rw [decode_hex (hex_upper (by omega)) (hex_upper (by omega))]
      congr 1; omega

theorem decode_quote {bs : List Nat} (h : ∀ b ∈ bs, b < 256) : decode (bs.flatMap quoteByte) = bs := by
  induction bs with
  | nil => rfl
  | cons b bs ih =>
    rw [List.flatMap_cons, decode_quoteByte (h b (by simp)), ih fun x hx => h x (by simp [hx])]

theorem char_lt {c : Nat} {u : List Nat} (h : Utf8Spec.Char c u) : ∀ b ∈ u, b < 256 := by
  cases h <;> simp <;> omega

theorem char_strict {c : Nat} {u : List Nat} (h : Utf8Spec.Char c u) : utf8Strict c = some u := by
  unfold utf8Strict
  rw [if_neg, LuaStr.char_enc h]
  cases h with
  | three _ _ _ _ hs => exact hs.2
  | _ => omega

theorem text_lt {t bs : List Nat} (h : Utf8Spec.Text t bs) : ∀ b ∈ bs, b < 256 := by
  induction h with
  | nil => simp
  | cons hc _ ih =>
    intro b hb
    rcases List.mem_append.mp hb with h | h
    · exact char_lt hc b h
    · exact ih b h

theorem text_quote {t bs : List Nat} (h : Utf8Spec.Text t bs) : quotePlus t = some (bs.flatMap quoteByte) := by
  have : ∃ l, t.mapM utf8Strict = some l ∧ l.flatten = bs := by
    induction h with
    | nil => exact ⟨[], rfl, rfl⟩
    | @cons c u t r hc _ ih =>
      obtain ⟨l, h1, h2⟩ := ih
      exact ⟨u :: l, by simp [List.mapM_cons, char_strict hc, h1], by simp [h2]⟩
  obtain ⟨l, h1, h2⟩ := this
  simp [quotePlus, h1, h2]

theorem takeWhile_cut {sep : Nat} {a : List Nat} (h : ∀ c ∈ a, c ≠ sep) (t : List Nat) : cut sep (a ++ sep :: t) = (a, t) := by
  unfold cut
  rw [List.takeWhile_append_of_pos (by simpa using h), List.dropWhile_append_of_pos (by simpa using h)]
  simp

theorem cut_none {sep : Nat} {a : List Nat} (h : ∀ c ∈ a, c ≠ sep) : (cut sep a).1 = a := by
  unfold cut
  have := List.takeWhile_append_of_pos (p := (· ≠ sep)) (l₁ := a) (l₂ := []) (by simpa using h)
  simpa using this

theorem pieces_one {sep : Nat} {a : List Nat} (h : ∀ c ∈ a, c ≠ sep) : pieces sep a = [a] := by
  induction a with
  | nil => rfl
  | cons c a ih =>
    rw [pieces, if_neg (h c (by simp)), ih fun x hx => h x (by simp [hx])]

theorem pieces_sep {sep : Nat} {a : List Nat} (h : ∀ c ∈ a, c ≠ sep) (t : List Nat) : pieces sep (a ++ sep :: t) = a :: pieces sep t := by
  induction a with
  | nil => simp [pieces]
  | cons c a ih =>
    rw [List.cons_append, pieces, if_neg (h c (by simp)), ih fun x hx => h x (by simp [hx])]

theorem flat_chars {bs : List Nat} (h : ∀ b ∈ bs, b < 256) : ∀ c ∈ bs.flatMap quoteByte, 33 ≤ c ∧ c ≤ 126 ∧ c ≠ 38 ∧ c ≠ 61 ∧ c ≠ 35 := by
  intro c hc
  obtain ⟨b, hb, h1⟩ := List.mem_flatMap.mp hc
  exact quote_chars (h b hb) c h1

/-- C96: for an id that starts with `#`, whatever text follows, the address is one of visible ASCII characters without a fragment; the server
reads from it two parameters, `lid`, which is that text in UTF-8, and `cat`, which is 7 for PICO-8 and 8 for Picotron. -/
theorem C96_url {name bs : List Nat} (h : Utf8Spec.Text name bs) (lang : Lang) :
    ∃ u, cartUrl (35 :: name) lang = some u ∧ (∀ c ∈ u, 33 ≤ c ∧ c ≤ 126) ∧
      (∃ rest, u = "https://www.lexaloffle.com/bbs/get_cart.php?".toList.map Char.toNat ++ rest) ∧
      form (queryOf u) = [("lid".toList.map Char.toNat, bs), ("cat".toList.map Char.toNat, [if lang = .pico8 then 55 else 56])] := by
  have hb := text_lt h
  have hq := flat_chars hb
  have hd := decode_quote hb
  refine ⟨_, by rw [cartUrl, text_quote h]; rfl, ?_, ⟨_, rfl⟩, ?_⟩
  · intro c hc
    simp only [List.mem_append] at hc
    rcases hc with h1 | ((h1 | h1) | h1) | h1
    · revert c; decide
    · revert c; decide
    · have := hq c h1; omega
    · revert c; decide
    · cases lang <;> revert c <;> decide
  · generalize hg : bs.flatMap quoteByte = q at *
    have hc : ∀ c ∈ category lang, c ≠ 35 ∧ c ≠ 38 ∧ c ≠ 61 ∧ c ≠ 37 ∧ c ≠ 43 := by cases lang <;> decide
    have e1 : queryOf (address ++ ([108, 105, 100, 61] ++ q ++ [38, 99, 97, 116, 61] ++ category lang)) =
        [108, 105, 100, 61] ++ q ++ [38, 99, 97, 116, 61] ++ category lang := by
      unfold queryOf
      rw [cut_none]
      · have ha : address = address.dropLast ++ [63] := by decide
        rw [ha, List.append_assoc, List.singleton_append, takeWhile_cut (by decide)]
      · intro c hc'
        simp only [List.mem_append] at hc'
        rcases hc' with h1 | ((h1 | h1) | h1) | h1
        · revert c; decide
        · revert c; decide
        · exact (hq c h1).2.2.2.2
        · revert c; decide
        · exact (hc c h1).1
    have e0 : "https://www.lexaloffle.com/bbs/get_cart.php?".toList.map Char.toNat = address := rfl
    rw [e0, e1]
    have e2 : [108, 105, 100, 61] ++ q ++ [38, 99, 97, 116, 61] ++ category lang =
        ([108, 105, 100] ++ 61 :: q) ++ 38 :: ([99, 97, 116] ++ 61 :: category lang) := by simp
    rw [e2]
    unfold form
    rw [pieces_sep, pieces_one]
    · simp only [List.map_cons, List.map_nil]
      rw [takeWhile_cut (by decide), takeWhile_cut (by decide), hd]
      cases lang <;> rfl
    · intro c hc'
      rcases List.mem_append.mp hc' with h1 | h1
      · clear hc'; revert c; decide
      rcases List.mem_cons.mp h1 with h1 | h1
      · omega
      · exact (hc c h1).2.1
    · intro c hc'
      rcases List.mem_append.mp hc' with h1 | h1
      · clear hc'; revert c; decide
      rcases List.mem_cons.mp h1 with h1 | h1
      · omega
      · exact (hq c h1).2.2.1

example : cartUrl [35, 97, 32, 38] .picotron =
    some ("https://www.lexaloffle.com/bbs/get_cart.php?lid=a+%26&cat=8".toList.map Char.toNat) := by decide +kernel

example : Utf8Spec.Text [233, 47] [0xc3, 0xa9, 47] ∧ cartUrl [35, 233, 47] .pico8 =
    some ("https://www.lexaloffle.com/bbs/get_cart.php?lid=%C3%A9%2F&cat=7".toList.map Char.toNat) :=
  ⟨.cons (.two (x := 3) (y := 41) (by omega) (by omega) (by omega)) (.cons (.one (by omega)) .nil), by decide +kernel⟩

/-- C96: different ids, or different languages, are asked for by different addresses. -/
theorem C96_injective {n n' b b' : List Nat} (h : Utf8Spec.Text n b) (h' : Utf8Spec.Text n' b') {l l' : Lang}
    (e : cartUrl (35 :: n) l = cartUrl (35 :: n') l') : n = n' ∧ l = l' := by
  obtain ⟨u, e1, -, -, f1⟩ := C96_url h l
  obtain ⟨u', e2, -, -, f2⟩ := C96_url h' l'
  rw [e1, e2] at e
  cases e
  rw [f1] at f2
  simp only [List.cons.injEq, Prod.mk.injEq, true_and, and_true] at f2
  obtain ⟨rfl, f3⟩ := f2
  refine ⟨(LuaStr.C60_utf8 h).1.symm.trans (LuaStr.C60_utf8 h').1, ?_⟩
  cases l <;> cases l' <;> first | rfl | (revert f3; decide)

/-- C96: an address is made only for ids that start with `#`, and only if what follows is text. -/
theorem C96_refused {id : List Nat} {l : Lang} {u : List Nat} (h : cartUrl id l = some u) :
    ∃ name, id = 35 :: name ∧ ∀ c ∈ name, ¬ (0xd800 ≤ c ∧ c < 0xe000) := by
  unfold cartUrl at h
  split at h
  · rename_i name
    refine ⟨name, rfl, fun c hc hs => ?_⟩
    have : name.mapM utf8Strict = none := by
      clear h
      induction name with
      | nil => cases hc
      | cons a t ih =>
        rcases List.mem_cons.mp hc with rfl | h1
        · simp [List.mapM_cons, utf8Strict, hs]
        · simp [List.mapM_cons, ih h1]
    rw [quotePlus, this] at h
    cases h
  · cases h

example : cartUrl [97] .pico8 = none ∧ cartUrl [35, 0xdc80] .pico8 = none := by decide

end Verif.Bbs
