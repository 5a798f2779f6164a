import Verif.Spec.StrLit
import Verif.Props.StrLit
/-! C17 against an independent description of literals: what the parser makes of a literal, and what the formatter writes, is what
the literal denotes in Lua. -/
namespace Verif
open StrSpec (Denotes LongDenotes)

/-! ### The parser -/

theorem table_charEscape : ∀ x ∈ StrSpec.table, charEscape x.1.toNat = some x.2 := by decide

theorem charEscape_table {e c : Nat} (h : charEscape e = some c) : ∃ x : Char, (x, c) ∈ StrSpec.table ∧ x.toNat = e := by
  have hm := lookup_mem h
  have : ∀ p ∈ [(42, 1), (35, 2), (45, 3), (124, 4), (43, 5), (94, 6), (97, 7), (98, 8), (116, 9), (110, 10), (118, 11), (102, 12), (114, 13),
    (92, 92), (34, 34), (39, 39), (10, 10)], (Char.ofNat p.1, p.2) ∈ StrSpec.table ∧ (Char.ofNat p.1).toNat = p.1 := by decide
  exact ⟨_, this _ hm⟩

theorem byte_langChr (p : Bool) (v : Nat) : StrSpec.byte p v = langChr p v := by
  cases p <;> simp [StrSpec.byte, langChr]

theorem dec_parse {s : List Nat} {n : Nat} (h : StrSpec.Dec s n) :
    s.foldl (fun acc c => acc.bind fun a => if 48 ≤ c ∧ c ≤ 57 then some (a * 10 + (c - 48)) else none) (some 0) = some n ∧
      ∀ c ∈ s, isDigit c = true := by
  induction h with
  | nil => simp
  | snoc h hd ih =>
    rename_i d
    rw [List.foldl_append, ih.1]
    constructor
    · simp only [List.foldl_cons, List.foldl_nil, Option.bind_some]
      rw [if_pos (by omega)]; congr 1; omega
    · intro c hc
      rw [List.mem_append] at hc
      rcases hc with hc | hc
      · exact ih.2 c hc
      · simp only [List.mem_cons, List.not_mem_nil, or_false] at hc
        subst hc
        simp [isDigit]; omega

theorem dec_parseNat {s : List Nat} {n : Nat} (h : StrSpec.Dec s n) (hs : s ≠ []) : parseNat s = some n := by
  unfold parseNat; rw [if_neg hs]; exact (dec_parse h).1

theorem hexVal_iff {c d : Nat} : hexVal c = some d ↔ StrSpec.IsHex c d := by
  unfold hexVal StrSpec.IsHex
  constructor
  · intro h
    split at h
    · simp only [Option.some.injEq] at h; omega
    · split at h
      · simp only [Option.some.injEq] at h; omega
      · split at h
        · simp only [Option.some.injEq] at h; omega
        · cases h
  · intro h
    rcases h with h | h | h
    · rw [if_pos (by omega)]; congr 1; omega
    · rw [if_neg (by omega), if_pos (by omega)]; congr 1; omega
    · rw [if_neg (by omega), if_neg (by omega), if_pos (by omega)]; congr 1; omega

theorem hex_parse {s : List Nat} {n : Nat} (h : StrSpec.Hex s n) : ∃ ds, s.mapM hexVal = some ds ∧ ds.foldl (fun a d => a * 16 + d) 0 = n ∧
    125 ∉ s := by
  induction h with
  | nil => exact ⟨[], rfl, rfl, by simp⟩
  | snoc h hd ih =>
    rename_i c d
    obtain ⟨ds, h1, h2, h3⟩ := ih
    refine ⟨ds ++ [d], ?_, ?_, ?_⟩
    · rw [List.mapM_append, h1]
      simp [hexVal_iff.mpr hd]
    · rw [List.foldl_append, h2]; simp; omega
    · rw [List.mem_append]
      rintro (h | h)
      · exact h3 h
      · simp only [List.mem_cons, List.not_mem_nil, or_false] at h
        subst h
        unfold StrSpec.IsHex at hd; omega

theorem hex_parseHex {s : List Nat} {n : Nat} (h : StrSpec.Hex s n) (hs : s ≠ []) : parseHex s = some n ∧ 125 ∉ s := by
  obtain ⟨ds, h1, h2, h3⟩ := hex_parse h
  refine ⟨?_, h3⟩
  unfold parseHex
  rw [if_neg hs, h1]; simp [h2]

theorem isWspace_iff {c : Nat} : isWspace c = true ↔ StrSpec.IsSpace c := by
  simp [isWspace, StrSpec.IsSpace]; omega

/-- The text ends with `\z` and white space. -/
def EndsInZ (s : List Nat) : Prop := ∃ a w, s = a ++ 92 :: 122 :: w ∧ ∀ c ∈ w, StrSpec.IsSpace c

/-- **C17.** Whatever the text between the quotes denotes, in either language, the parser finds; only a `\z` with nothing but white
space behind it makes it fail. -/
theorem C17_parser_complete {p : Bool} {s v : List Nat} (h : Denotes p utf8Bytes s v) :
    parseBody p s = some v ∨ parseBody p s = none ∧ EndsInZ s := by
  have app : ∀ (a : List Nat) {t : List Nat}, EndsInZ t → EndsInZ (a ++ t) := by
    rintro a t ⟨b, w, rfl, hw⟩
    exact ⟨a ++ b, w, by simp, hw⟩
  have esc : ∀ {t a r u v : List Nat}, parseEscape p t = some (a, r) → 92 :: t = u ++ r →
      (parseBody p r = some v ∨ parseBody p r = none ∧ EndsInZ r) →
      (parseBody p (92 :: t) = some (a ++ v) ∨ parseBody p (92 :: t) = none ∧ EndsInZ (92 :: t)) := by
    intro t a r u v h1 h2 ih
    rcases ih with ih | ⟨ih, hz⟩
    · left; rw [parseBody_esc h1, ih]; rfl
    · right; rw [parseBody_esc h1, ih, h2]; exact ⟨rfl, app u hz⟩
  induction h with
  | nil => left; rw [parseBody]
  | char h1 _ ih =>
    rename_i c s v _
    rcases ih with ih | ⟨ih, hz⟩
    · left; rw [parseBody_char h1, ih]; rfl
    · right; rw [parseBody_char h1, ih]; exact ⟨rfl, app [c] hz⟩
  | escape h1 _ ih =>
    rename_i e c s v _
    have := table_charEscape _ h1
    exact esc (u := [92, e.toNat]) (a := [c]) (by simp [parseEscape, this]) (by simp) ih
  | decimal h1 h2 h3 h4 h5 _ ih =>
    rename_i ds s v n _
    cases ds with
    | nil => contradiction
    | cons d ds =>
      have hdig := (dec_parse h2).2
      obtain ⟨e1, e2, e3, _⟩ := isDigit_esc (hdig d (by simp))
      have hl : ds.length ≤ 2 := by simpa using h4
      have htake : ((ds ++ s).take 2).takeWhile isDigit = ds := by
        rw [List.take_append, List.take_of_length_le hl, List.takeWhile_append_of_pos (fun x hx => hdig x (by simp [hx]))]
        rcases h5 with h5 | h5
        · have : ds.length = 2 := by simpa using h5
          simp [this]
        · cases s with
          | nil => simp
          | cons x s =>
            have hx : isDigit x = false := by
              have := h5 x rfl
              cases hb : isDigit x with
              | false => rfl
              | true => exact absurd (by simpa [isDigit, StrSpec.IsDec] using hb) this
            cases hk : 2 - ds.length with
            | zero => simp
            | succ k => simp [hx]
      refine esc (u := 92 :: d :: ds) (a := [StrSpec.byte p n]) ?_ (by simp) ih
      simp only [List.cons_append, parseEscape, e1, e2, e3, hdig d (by simp), if_false, if_true, htake, dec_parseNat h2 h1]
      rw [if_neg (by omega), byte_langChr]
      simp
  | hex h1 _ ih =>
    rename_i a b n s v _
    refine esc (u := [92, 120, a, b]) (a := [StrSpec.byte p n]) ?_ (by simp) ih
    have e1 : charEscape 120 = none := by decide
    simp only [parseEscape, e1]
    rw [if_neg (by decide), if_pos trivial]
    have := (hex_parseHex h1 (by simp)).1
    simp [this, byte_langChr]
  | skip h1 h2 _ ih =>
    rename_i w s v _
    have hdrop : (w ++ s).dropWhile isWspace = s := by
      rw [List.dropWhile_append_of_pos (fun x hx => isWspace_iff.mpr (h1 x hx))]
      cases s with
      | nil => rfl
      | cons x s =>
        have : isWspace x = false := by
          cases hb : isWspace x with
          | false => rfl
          | true => exact absurd (isWspace_iff.mp hb) (h2 x rfl)
        rw [List.dropWhile_cons_of_neg (by simp [this])]
    have e1 : charEscape 122 = none := by decide
    cases s with
    | nil =>
      right
      refine ⟨?_, [], w, by simp, h1⟩
      have : parseEscape p (122 :: (w ++ [])) = none := by simp only [parseEscape, e1, if_true, hdrop]
      rw [parseBody]
      simp only [if_true]
      split
      · rfl
      · rename_i h; rw [this] at h; cases h
    | cons x s =>
      refine esc (u := 92 :: 122 :: w) (a := []) ?_ (by simp) ih
      simp only [parseEscape, e1, if_true, hdrop]
      simp
  | unicode h0 h1 h2 h3 _ ih =>
    rename_i ds s v n _
    subst h0
    have e1 : charEscape 117 = none := by decide
    obtain ⟨g1, g2⟩ := hex_parseHex h2 h1
    refine esc (u := 92 :: 117 :: 123 :: (ds ++ [125])) (a := (utf8Bytes n).map (StrSpec.byte false)) ?_ (by simp) ih
    have ht : (ds ++ 125 :: s).takeWhile (· ≠ 125) = ds := by
      rw [List.takeWhile_append_of_pos (by intro x hx; simp; exact fun e => g2 (e ▸ hx))]; simp
    have hdr : (ds ++ 125 :: s).dropWhile (· ≠ 125) = 125 :: s := by
      rw [List.dropWhile_append_of_pos (by intro x hx; simp; exact fun e => g2 (e ▸ hx))]; simp
    simp only [parseEscape, e1]
    rw [if_neg (by decide), if_neg (by decide), if_neg (by decide), if_pos (by decide), if_pos (by simp)]
    simp only [ht, hdr, g1]
    rw [if_neg (by omega), C53_unicode_escape false h3]
    simp only [List.drop_succ_cons, List.drop_zero]
    congr 3
    funext x; exact (byte_langChr false x).symm

/-- The failure exists. -/
theorem C17_z_counterexample : Denotes true utf8Bytes [97, 92, 122, 32] [97] ∧ parseBody true [97, 92, 122, 32] = none := by
  constructor
  · exact .char (by decide) (.skip (w := [32]) (s := []) (by simp [StrSpec.IsSpace]) (by simp) .nil)
  · decide +kernel

/-- The text ends with `\x` and a single character. -/
def EndsInX (s : List Nat) : Prop := ∃ a c, s = a ++ [92, 120, c]

theorem snoc_induction {P : List Nat → Prop} (h0 : P []) (h1 : ∀ s c, P s → P (s ++ [c])) (s : List Nat) : P s := by
  rw [← List.reverse_reverse s]
  induction s.reverse with
  | nil => exact h0
  | cons c t ih => rw [List.reverse_cons]; exact h1 _ _ ih

theorem mem_takeWhile_true {p : Nat → Bool} {c : Nat} : ∀ {l : List Nat}, c ∈ l.takeWhile p → p c = true
  | [], h => by cases h
  | a :: l, h => by
    rw [List.takeWhile_cons] at h
    split at h
    · rename_i ha
      rcases List.mem_cons.mp h with rfl | h
      · exact ha
      · exact mem_takeWhile_true h
    · cases h

theorem split_brace : ∀ {l : List Nat}, 125 ∈ l → l = l.takeWhile (· ≠ 125) ++ 125 :: (l.dropWhile (· ≠ 125)).drop 1
  | [], h => by cases h
  | a :: l, h => by
    by_cases ha : a = 125
    · subst ha; simp
    · have := split_brace (l := l) (by rcases List.mem_cons.mp h with h | h; exact absurd h.symm ha; exact h)
      rw [List.takeWhile_cons_of_pos (by simp [ha]), List.dropWhile_cons_of_pos (by simp [ha]), List.cons_append, ← this]

theorem parse_dec {s : List Nat} (h : ∀ c ∈ s, isDigit c = true) : ∀ {n}, s.foldl (fun acc c => acc.bind fun a => if 48 ≤ c ∧ c ≤ 57 then
    some (a * 10 + (c - 48)) else none) (some 0) = some n → StrSpec.Dec s n := by
  induction s using snoc_induction with
  | h0 => intro n hn; simp at hn; subst hn; exact .nil
  | h1 s c ih =>
    intro n hn
    rw [List.foldl_append] at hn
    simp only [List.foldl_cons, List.foldl_nil] at hn
    obtain ⟨m, hm, hn⟩ := Option.bind_eq_some_iff.mp hn
    have hc := h c (by simp)
    simp [isDigit] at hc
    rw [if_pos hc, Option.some.injEq] at hn
    have := StrSpec.Dec.snoc (ih (fun x hx => h x (by simp [hx])) hm) (d := c - 48) (by omega)
    rw [show 48 + (c - 48) = c by omega, show 10 * m + (c - 48) = n by omega] at this
    exact this

theorem parse_hex {s : List Nat} : ∀ {n}, (s.mapM hexVal).map (fun ds => ds.foldl (fun a d => a * 16 + d) 0) = some n → StrSpec.Hex s n := by
  induction s using snoc_induction with
  | h0 => intro n hn; simp at hn; subst hn; exact .nil
  | h1 s c ih =>
    intro n hn
    rw [List.mapM_append] at hn
    cases h1 : s.mapM hexVal with
    | none => simp [h1] at hn
    | some ds =>
      cases h2 : hexVal c with
      | none => simp [h1, h2] at hn
      | some d =>
        simp [h1, h2, List.foldl_append] at hn
        have := StrSpec.Hex.snoc (ih (n := ds.foldl (fun a d => a * 16 + d) 0) (by rw [h1]; rfl)) (hexVal_iff.mp h2)
        rwa [show 16 * ds.foldl (fun a d => a * 16 + d) 0 + d = n by omega] at this

theorem parseHex_hex {s : List Nat} {n : Nat} (h : parseHex s = some n) : s ≠ [] ∧ StrSpec.Hex s n := by
  unfold parseHex at h
  split at h
  · cases h
  · rename_i hs; exact ⟨hs, parse_hex h⟩

/-- **C17.** What the parser accepts denotes what it returns; only a `\x` with a single digit at the end is accepted beyond that. -/
theorem C17_parser_sound {p : Bool} : ∀ {s v : List Nat}, parseBody p s = some v → Denotes p utf8Bytes s v ∨ EndsInX s := by
  have app : ∀ (a : List Nat) {t : List Nat}, EndsInX t → EndsInX (a ++ t) := by
    rintro a t ⟨b, c, rfl⟩
    exact ⟨a ++ b, c, by simp⟩
  have key : ∀ n, ∀ s : List Nat, s.length ≤ n → ∀ v, parseBody p s = some v → Denotes p utf8Bytes s v ∨ EndsInX s := by
    intro n
    induction n with
    | zero =>
      intro s hs v h
      have : s = [] := List.length_eq_zero_iff.mp (by omega)
      subst this
      rw [parseBody] at h
      simp only [Option.some.injEq] at h
      subst h
      exact Or.inl .nil
    | succ n ih =>
      intro s hs v h
      cases s with
      | nil => rw [parseBody] at h; simp only [Option.some.injEq] at h; subst h; exact Or.inl .nil
      | cons c t =>
        by_cases hc : c = 92
        · subst hc
          cases he : parseEscape p t with
          | none =>
            rw [parseBody] at h
            simp only [if_true] at h
            split at h
            · cases h
            · rename_i h'; rw [he] at h'; cases h'
          | some x =>
            obtain ⟨a, r⟩ := x
            rw [parseBody_esc he] at h
            obtain ⟨w, hw, rfl⟩ := Option.map_eq_some_iff.mp h
            have hlen := parseEscape_length he
            have ih' := ih r (by simp at hs; omega) w hw
            -- the part before the rest
            have fin : ∀ u, 92 :: t = u ++ r → (Denotes p utf8Bytes r w → Denotes p utf8Bytes (92 :: t) (a ++ w)) →
                Denotes p utf8Bytes (92 :: t) (a ++ w) ∨ EndsInX (92 :: t) := by
              intro u hu hd
              rcases ih' with h | h
              · exact Or.inl (hd h)
              · exact Or.inr (by rw [hu]; exact app u h)
            cases t with
            | nil => simp [parseEscape] at he
            | cons e t =>
              simp only [parseEscape] at he
              split at he
              · rename_i ch hce
                simp only [Option.some.injEq, Prod.mk.injEq] at he
                obtain ⟨rfl, rfl⟩ := he
                obtain ⟨y, h1, rfl⟩ := charEscape_table hce
                exact fin [92, y.toNat] rfl (fun h => .escape h1 h)
              · split at he
                · rename_i hz
                  subst hz
                  split at he
                  · cases he
                  · simp only [Option.some.injEq, Prod.mk.injEq] at he
                    obtain ⟨rfl, rfl⟩ := he
                    have hsp : t = t.takeWhile isWspace ++ t.dropWhile isWspace := List.takeWhile_append_dropWhile.symm
                    refine fin (92 :: 122 :: t.takeWhile isWspace) (by rw [List.cons_append, List.cons_append, ← hsp]) (fun h => ?_)
                    have := Denotes.skip (w := t.takeWhile isWspace) (fun c hc => isWspace_iff.mp (mem_takeWhile_true hc)) (fun c hc => by
                      intro hsp'
                      have hne : t.dropWhile isWspace ≠ [] := by intro h0; rw [h0] at hc; cases hc
                      have hd := List.head_dropWhile_not isWspace hne
                      rw [List.head?_eq_some_head hne, Option.some.injEq] at hc
                      rw [hc, isWspace_iff.mpr hsp'] at hd
                      cases hd) h
                    rw [← hsp] at this
                    exact this
                · split at he
                  · rename_i hx
                    subst hx
                    obtain ⟨m, hm, he⟩ := Option.map_eq_some_iff.mp he
                    simp only [Prod.mk.injEq] at he
                    obtain ⟨rfl, rfl⟩ := he
                    obtain ⟨h1, h2⟩ := parseHex_hex hm
                    match t, h1, h2 with
                    | [], h1, _ => exact absurd rfl h1
                    | [x], _, _ => exact Or.inr ⟨[], x, rfl⟩
                    | x :: y :: t, _, h2 =>
                      refine fin [92, 120, x, y] rfl (fun h => ?_)
                      have := Denotes.hex (uni := utf8Bytes) h2 h
                      rw [byte_langChr] at this
                      exact this
                  · split at he
                    · rename_i hdig
                      split at he
                      · cases he
                      · rename_i m hm
                        split at he
                        · cases he
                        · rename_i hlt
                          simp only [Option.some.injEq, Prod.mk.injEq] at he
                          obtain ⟨rfl, rfl⟩ := he
                          obtain ⟨ds, hds⟩ : ∃ ds, ds = (t.take 2).takeWhile isDigit := ⟨_, rfl⟩
                          rw [← hds] at hm hw fin ih' hlen
                          have hpre : ds <+: t := by rw [hds]; exact (List.takeWhile_prefix _).trans (List.take_prefix _ _)
                          obtain ⟨t', rfl⟩ := hpre
                          rw [List.drop_left] at fin ih' hw
                          have hdd : ∀ c ∈ e :: ds, isDigit c = true := by
                            intro c hc
                            rw [List.mem_cons] at hc
                            rcases hc with rfl | hc
                            · exact hdig
                            · rw [hds] at hc; exact mem_takeWhile_true hc
                          have hl2 : ds.length ≤ 2 := by
                            rw [hds]
                            exact Nat.le_trans (List.takeWhile_prefix _).length_le (by simp; omega)
                          have hdec : StrSpec.Dec (e :: ds) m := by
                            rw [parseNat, if_neg (by simp)] at hm
                            exact parse_dec hdd hm
                          refine fin (92 :: e :: ds) (by simp) (fun h => ?_)
                          have := Denotes.decimal (by simp) hdec (by omega) (by simp; omega) ?_ h
                          · rw [byte_langChr] at this; exact this
                          · by_cases h2 : ds.length = 2
                            · left; simp [h2]
                            · right
                              intro c hc hdc
                              cases t' with
                              | nil => cases hc
                              | cons y t' =>
                                simp only [List.head?_cons, Option.some.injEq] at hc
                                subst hc
                                have hb : isDigit y = true := by simpa [isDigit, StrSpec.IsDec] using hdc
                                have hlong : ds ++ [y] <+: (ds ++ y :: t').take 2 := by
                                  rw [List.prefix_take_iff]
                                  exact ⟨⟨t', by simp⟩, by simp; omega⟩
                                obtain ⟨z, hz⟩ := hlong
                                rw [← hz, List.takeWhile_append_of_pos (by
                                  intro c hc
                                  rw [List.mem_append] at hc
                                  rcases hc with hc | hc
                                  · exact hdd c (by simp [hc])
                                  · simp at hc; subst hc; exact hb)] at hds
                                have := congrArg List.length hds
                                simp at this
                    · split at he
                      · rename_i hu
                        simp only [Bool.and_eq_true, Bool.not_eq_true', decide_eq_true_eq] at hu
                        obtain ⟨rfl, rfl⟩ := hu
                        split at he
                        · rename_i t' _
                          split at he
                          · rename_i hmem
                            split at he
                            · cases he
                            · rename_i m hm
                              split at he
                              · cases he
                              · simp only [Option.some.injEq, Prod.mk.injEq] at he
                                obtain ⟨rfl, rfl⟩ := he
                                obtain ⟨h1, h2⟩ := parseHex_hex hm
                                have hsp := split_brace hmem
                                refine fin (92 :: 117 :: 123 :: (List.takeWhile (· ≠ 125) _ ++ [125])) (by
                                  simp only [List.cons_append, List.append_assoc, List.nil_append]
                                  rw [← hsp]) (fun h => ?_)
                                have := Denotes.unicode (pico8 := false) (uni := utf8Bytes) rfl h1 h2 (by omega) h
                                rw [← hsp] at this
                                rw [C53_unicode_escape false (by omega)]
                                rw [show langChr false = StrSpec.byte false by funext x; exact (byte_langChr false x).symm]
                                exact this
                          · cases he
                        · cases he
                      · cases he
        · rw [parseBody_char hc] at h
          obtain ⟨w, hw, rfl⟩ := Option.map_eq_some_iff.mp h
          rcases ih t (by simp at hs; omega) w hw with h | h
          · exact Or.inl (.char hc h)
          · exact Or.inr (app [c] h)
  exact fun {s v} h => key s.length s (Nat.le_refl _) v h

/-- The excess exists: Lua wants two digits. -/
theorem C17_x_counterexample : parseBody true [92, 120, 53] = some [5] := by decide +kernel

/-! ### The formatter -/

/-- **C17.** The text of a quoted literal denotes the string, in both languages
(where it ends: `C17_quoted_token`). -/
theorem C17_quoted_denotes {isDig : Nat → Bool} (hd : AsciiDig isDig) (pico8 useCtrl : Bool) (uni : Nat → List Nat) {quote : Option Nat}
    (hq : ∀ q, quote = some q → q = 34 ∨ q = 39) (v : List Nat) :
    ∃ q body, (q = 34 ∨ q = 39) ∧ (∀ x, quote = some x → q = x) ∧ formatQuoted isDig useCtrl quote v = q :: (body ++ [q]) ∧
      Denotes pico8 uni body v := by
  have hq' : quote.getD (if v.count 34 ≤ v.count 39 then 34 else 39) = 34 ∨ quote.getD (if v.count 34 ≤ v.count 39 then 34 else 39) = 39 := by
    cases quote with
    | none => simp only [Option.getD_none]; split <;> simp
    | some q => exact hq q rfl
  have key : ∀ q, q = 34 ∨ q = 39 → ∀ v, Denotes pico8 uni (litParts isDig useCtrl q v) v := by
    intro q hq v
    induction v with
    | nil => exact .nil
    | cons c v ih =>
      rw [litParts_cons]
      have hnd : (∀ d, v.head? = some d → isDig d = false) → ∀ d, (litParts isDig useCtrl q v).head? = some d → ¬ StrSpec.IsDec d := by
        intro hv d hd' hdec
        have := litParts_head hd (u := useCtrl) hq hv d hd'
        simp [isDigit, StrSpec.IsDec] at this hdec; omega
      rcases litPart_cases hd hq c v (u := useCtrl) with ⟨e, _, h, _⟩ | ⟨x, e, h, _⟩ | ⟨a, b, e, ha, hb, hn, hc⟩ | ⟨e, rfl, hv⟩ |
        ⟨b, e, hb, hn, hc, hv⟩ <;> rw [e]
      · exact .char h ih
      · obtain ⟨y, h1, rfl⟩ := charEscape_table h
        exact .escape h1 ih
      · have hbyte : StrSpec.byte pico8 c = c := by simp [StrSpec.byte]; omega
        simp [isDigit] at ha hb
        have hdec : StrSpec.Dec [48, a, b] c := by
          have : c = 10 * (10 * (10 * 0 + 0) + (a - 48)) + (b - 48) := by
            rw [parseNat, if_neg (by simp)] at hn
            simp only [List.foldl_cons, List.foldl_nil, Option.bind_some] at hn
            rw [if_pos (by omega)] at hn
            simp only [Option.bind_some] at hn
            rw [if_pos (by omega)] at hn
            simp only [Option.bind_some] at hn
            rw [if_pos (by omega)] at hn
            simp only [Option.some.injEq] at hn
            omega
          rw [this]
          have h3 := StrSpec.Dec.snoc (.snoc (.snoc .nil (d := 0) (by omega)) (d := a - 48) (by omega)) (d := b - 48) (by omega)
          simp only [List.nil_append, List.cons_append] at h3
          rwa [show 48 + (a - 48) = a by omega, show 48 + (b - 48) = b by omega] at h3
        have := Denotes.decimal (pico8 := pico8) (uni := uni) (ds := [48, a, b]) (by simp) hdec (by omega) (by simp) (Or.inl rfl) ih
        rw [hbyte] at this
        exact this
      · have := Denotes.decimal (pico8 := pico8) (uni := uni) (ds := [48]) (n := 0) (by simp) (StrSpec.Dec.snoc .nil (d := 0) (by omega)) (by omega) (by simp)
          (Or.inr (hnd hv)) ih
        rw [show StrSpec.byte pico8 0 = 0 by simp [StrSpec.byte]] at this
        exact this
      · have hbyte : StrSpec.byte pico8 c = c := by simp [StrSpec.byte]; omega
        simp [isDigit] at hb
        have hdec : StrSpec.Dec [49, b] c := by
          have : c = 10 * (10 * 0 + 1) + (b - 48) := by
            rw [parseNat, if_neg (by simp)] at hn
            simp only [List.foldl_cons, List.foldl_nil, Option.bind_some] at hn
            rw [if_pos (by omega)] at hn
            simp only [Option.bind_some] at hn
            rw [if_pos (by omega)] at hn
            simp only [Option.some.injEq] at hn
            omega
          rw [this]
          have h3 := StrSpec.Dec.snoc (.snoc .nil (d := 1) (by omega)) (d := b - 48) (by omega)
          simp only [List.nil_append, List.cons_append] at h3
          rwa [show 48 + (b - 48) = b by omega] at h3
        have := Denotes.decimal (pico8 := pico8) (uni := uni) (ds := [49, b]) (by simp) hdec (by omega) (by simp) (Or.inr (hnd hv)) ih
        rw [hbyte] at this
        exact this
  unfold formatQuoted
  refine ⟨_, _, hq', ?_, rfl, key _ hq' v⟩
  intro x hx; subst hx; rfl

/-- **C17.** The text of a long literal denotes the string. -/
theorem C17_long_denotes {v : List Nat} (h : 13 ∉ v) : LongDenotes (formatLong v) v := by
  refine ⟨longEqs v, (if v.head? = some 10 then [10] else []) ++ v, ?_, ?_, ?_, ?_⟩
  · simp [formatLong]
  · split <;> simp [h]
  · intro hi
    apply longEqs_spec v
    split at hi
    · rw [List.cons_append, List.nil_append, List.infix_cons_iff] at hi
      rcases hi with hi | hi
      · have := List.prefix_cons_iff.mp hi
        simp at this
      · exact hi
    · exact hi
  · split
    · left; rfl
    · right; rename_i h; exact ⟨by simpa using h, rfl⟩

/-- All kinds of escapes: `A\65\x41\z  \u{20ac}\n\*`. -/
example : Denotes false utf8Bytes ([65, 92, 54, 53, 92, 120, 52, 49, 92, 122, 32, 32, 92, 117, 123, 50, 48, 97, 99, 125, 92, 110, 92, 42])
    [65, 65, 65, 0xdce2, 0xdc82, 0xdcac, 10, 1] := by
  refine .char (by decide) ?_
  refine .decimal (ds := [54, 53]) (n := 65) (by decide) (.snoc (s := [54]) (n := 6) (d := 5) (.snoc (s := []) (d := 6) .nil (by decide)) (by decide))
    (by decide) (by decide) (Or.inr (by simp [StrSpec.IsDec])) ?_
  refine .hex (n := 65) (.snoc (s := [52]) (n := 4) (d := 1) (.snoc (s := []) (d := 4) .nil (by simp [StrSpec.IsHex])) (by simp [StrSpec.IsHex])) ?_
  refine .skip (w := [32, 32]) (by simp [StrSpec.IsSpace]) (by simp [StrSpec.IsSpace]) ?_
  have : (utf8Bytes 0x20ac).map (StrSpec.byte false) = [0xdce2, 0xdc82, 0xdcac] := by decide +kernel
  rw [show [0xdce2, 0xdc82, 0xdcac, 10, 1] = (utf8Bytes 0x20ac).map (StrSpec.byte false) ++ [10, 1] by rw [this]; rfl]
  refine .unicode (ds := [50, 48, 97, 99]) (n := 0x20ac) rfl (by decide) ?_ (by decide) ?_
  · exact .snoc (s := [50, 48, 97]) (n := 0x20a) (d := 12) (.snoc (s := [50, 48]) (n := 0x20) (d := 10) (.snoc (s := [50]) (n := 2) (d := 0)
      (.snoc (s := []) (n := 0) (d := 2) .nil (by simp [StrSpec.IsHex])) (by simp [StrSpec.IsHex])) (by simp [StrSpec.IsHex])) (by simp [StrSpec.IsHex])
  · exact .escape (e := 'n') (by decide) (.escape (e := '*') (by decide) .nil)

end Verif
