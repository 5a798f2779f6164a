import Verif.SysRom
import Verif.Props.Binary
import Verif.Props.Ptron
/-! # C41, C58: the exports of Picotron carts -/
namespace Verif.SysRom

/-- The container format: every entry has its length in front, in four bytes, the highest first. -/
def format : List (List Nat) → List Nat
  | [] => []
  | e :: es => [e.length / 256 ^ 3, e.length / 256 ^ 2 % 256, e.length / 256 % 256, e.length % 256] ++ e ++ format es

theorem pack4 {n : Nat} (h : n < 256 ^ 4) :
    packU true 4 (n : Int) = some [n / 256 ^ 3, n / 256 ^ 2 % 256, n / 256 % 256, n % 256] := by
  unfold packU
  rw [if_pos ⟨by omega, by exact_mod_cast h⟩]
  simp only [Int.toNat_natCast, leBytes, if_true, Option.some.injEq, List.reverse_cons, List.reverse_nil, List.nil_append,
    List.cons_append, List.cons.injEq, and_true]
  omega

theorem unpack4 {n : Nat} (h : n < 256 ^ 4) (r : List Nat) :
    unpackU true 4 ([n / 256 ^ 3, n / 256 ^ 2 % 256, n / 256 % 256, n % 256] ++ r) = some ((n : Int), r) :=
  ((C52_unsigned true 4 n).2 _ (pack4 h)).2.2 r

theorem parse_nil : parse [] = some [] := by rw [parse.eq_def]; simp

theorem parse_cons {data r r' entry : List Nat} {size : Int} (h : unpackU true 4 data = some (size, r))
    (h2 : readBytes size.toNat false r = some (entry, r')) : parse data = (parse r').map (entry :: ·) := by
  have hne : data ≠ [] := by rintro rfl; simp [unpackU] at h
  rw [parse.eq_def, if_neg hne]
  split
  · rename_i h'; rw [h] at h'; cases h'
  · rename_i s' r'' h'
    rw [h] at h'
    simp only [Option.some.injEq, Prod.mk.injEq] at h'
    obtain ⟨rfl, rfl⟩ := h'
    split
    · rename_i h'; rw [h2] at h'; cases h'
    · rename_i e' r3 h'
      rw [h2] at h'
      simp only [Option.some.injEq, Prod.mk.injEq] at h'
      obtain ⟨rfl, rfl⟩ := h'
      rfl

/-- C41: writing a container gives the format, for entries of less than 4 GiB (others are an error), and reading the format
gives the entries. -/
theorem C41_roundtrip (entries : List (List Nat)) :
    ((∃ b, toBytes entries = some b) ↔ ∀ e ∈ entries, e.length < 2 ^ 32) ∧
    ∀ b, toBytes entries = some b → b = format entries ∧ parse b = some entries := by
  have key : ∀ (entries : List (List Nat)), (∀ e ∈ entries, e.length < 2 ^ 32) →
      toBytes entries = some (format entries) ∧ parse (format entries) = some entries := by
    intro entries
    induction entries with
    | nil => intro _; exact ⟨rfl, parse_nil⟩
    | cons e es ih =>
      intro h
      obtain ⟨i1, i2⟩ := ih fun e he => h e (by simp [he])
      have hl : e.length < 256 ^ 4 := by have := h e (by simp); omega
      constructor
      · simp only [toBytes, pack4 hl, i1, Option.bind_eq_bind, Option.bind_some, pure, format]
      · have h1 := unpack4 hl (e ++ format es)
        have h2 : readBytes ((e.length : Int).toNat) false (e ++ format es) = some (e, format es) := by simp [readBytes]
        rw [← List.append_assoc] at h1
        rw [format, parse_cons h1 h2, i2]
        rfl
  have hlen : ∀ (entries : List (List Nat)) b, toBytes entries = some b → ∀ e ∈ entries, e.length < 2 ^ 32 := by
    intro entries
    induction entries with
    | nil => intro _ _ e he; simp at he
    | cons e es ih =>
      intro b hb x hx
      simp only [toBytes, Option.bind_eq_bind, Option.bind_eq_some_iff] at hb
      obtain ⟨sz, h1, rest, h2, -⟩ := hb
      rcases List.mem_cons.mp hx with rfl | hx
      · have := (C52_unsigned true 4 ((x.length : Nat) : Int)).1.mp (by rw [h1]; rfl)
        have := this.2
        omega
      · exact ih rest h2 x hx
  refine ⟨⟨fun ⟨b, hb⟩ => hlen entries b hb, fun h => ⟨_, (key entries h).1⟩⟩, fun b hb => ?_⟩
  obtain ⟨h1, h2⟩ := key entries (hlen entries b hb)
  rw [h1, Option.some.injEq] at hb
  exact ⟨hb.symm, hb ▸ h2⟩

/-- C41: whatever bytes are accepted are in the format, so that saving unchanged entries gives the same file. -/
theorem C41_exact {b : List Nat} (hb : ∀ x ∈ b, x < 256) {entries : List (List Nat)} (h : parse b = some entries) :
    toBytes entries = some b := by
  suffices b = format entries ∧ ∀ e ∈ entries, e.length < 2 ^ 32 by
    obtain ⟨c, hc⟩ := (C41_roundtrip entries).1.mpr this.2
    rw [hc, ((C41_roundtrip entries).2 c hc).1, ← this.1]
  fun_induction parse b generalizing entries with
  | case1 => simp at h; subst h; exact ⟨rfl, by simp⟩
  | case2 => simp at h
  | case3 => simp at h
  | case4 data hne size r hs entry r' hr ih =>
    simp only [Option.map_eq_some_iff] at h
    obtain ⟨es, he, rfl⟩ := h
    unfold unpackU at hs
    split at hs
    · cases hs
    rename_i hlen
    simp only [Option.some.injEq, Prod.mk.injEq, if_true] at hs
    obtain ⟨hs1, rfl⟩ := hs
    unfold readBytes at hr
    split at hr
    · cases hr
    rename_i hlen2
    simp only [Option.some.injEq, Prod.mk.injEq] at hr
    obtain ⟨rfl, rfl⟩ := hr
    obtain ⟨i1, i2⟩ := ih (fun x hx => hb x (List.mem_of_mem_drop (List.mem_of_mem_drop hx))) he
    obtain ⟨a0, a1, a2, a3, t, rfl⟩ : ∃ a0 a1 a2 a3 t, data = a0 :: a1 :: a2 :: a3 :: t := by
      match data, hlen with
      | a0 :: a1 :: a2 :: a3 :: t, _ => exact ⟨_, _, _, _, _, rfl⟩
      | [], h => simp at h
      | [_], h => simp at h
      | [_, _], h => simp at h
      | [_, _, _], h => simp at h
    have b0 := hb a0 (by simp)
    have b1 := hb a1 (by simp)
    have b2 := hb a2 (by simp)
    have b3 := hb a3 (by simp)
    simp [leValue] at hs1
    simp only [List.drop_succ_cons, List.drop_zero] at hlen2 i1 ⊢
    have hl : (t.take size.toNat).length = size.toNat := by
      rcases Nat.lt_trichotomy (t.take size.toNat).length size.toNat with h | h | h <;> simp at hlen2 <;> simp at h ⊢ <;> omega
    have hsz : size.toNat = a3 + 256 * (a2 + 256 * (a1 + 256 * a0)) := by omega
    constructor
    · rw [format, hl, ← i1, List.append_assoc, List.take_append_drop]
      simp only [List.cons_append, List.nil_append, List.cons.injEq, and_true]
      refine ⟨?_, ?_, ?_, ?_⟩ <;> omega
    · intro e he'
      rcases List.mem_cons.mp he' with rfl | he'
      · rw [hl]; omega
      · exact i2 e he'

/-- C41: setting an entry changes that entry only; missing entries in front of it become empty. -/
theorem C41_set (entries : List (List Nat)) (idx : Nat) (value : List Nat) :
    get (set entries idx value) idx = some value ∧
    (∀ j, j ≠ idx → j < entries.length → get (set entries idx value) j = get entries j) ∧
    (∀ j, entries.length ≤ j → j < idx → get (set entries idx value) j = some []) ∧
    (set entries idx value).length = max entries.length (idx + 1) := by
  unfold get set
  refine ⟨?_, fun j hj hl => ?_, fun j hl hj => ?_, ?_⟩
  · rw [List.getElem?_set_self (by simp; omega)]
  · rw [List.getElem?_set_ne (by omega), List.getElem?_append_left hl]
  · rw [List.getElem?_set_ne (by omega), List.getElem?_append_right hl, List.getElem?_replicate, if_pos (by omega)]
  · simp; omega

/-- C41, the whole way: a cart put into a container that is saved and loaded comes back, and the other entries are kept. -/
theorem C41_cart {cart : Ptron.Cart} (hn : (cart.files.map (·.1)).Nodup) (h0 : ∀ f ∈ cart.files, 0 ∉ f.1)
    (h1 : ∀ f ∈ cart.files, ∀ c ∈ f.1, c < 256) (h2 : ∀ f ∈ cart.files, ∀ d, f.2 = some d → ∀ c ∈ d, c < 256)
    {padding limit : Nat} {fast : Bool} {entries entries' : List (List Nat)}
    (hs : setCart padding limit fast cart entries = some entries') {b : List Nat} (hb : toBytes entries' = some b)
    (defVersion : Nat) (tiny : Bool) :
    ∃ files, (parse b).bind (getCart defVersion tiny) = some ⟨cart.version, files⟩ ∧ files.Perm cart.files ∧
      ∀ j, j ≠ 2 → j < entries.length → ∃ es, parse b = some es ∧ get es j = get entries j := by
  unfold setCart at hs
  simp only [Option.map_eq_some_iff] at hs
  obtain ⟨rom, hrom, rfl⟩ := hs
  obtain ⟨files, hf, hp⟩ := Ptron.C34_roundtrip hn h0 h1 h2 hrom defVersion tiny
  obtain ⟨c1, c2, -, -⟩ := C41_set entries cartIdx rom
  have hparse := ((C41_roundtrip _).2 b hb).2
  refine ⟨files, ?_, hp, fun j hj hl => ⟨_, hparse, c2 j hj hl⟩⟩
  rw [hparse, Option.bind_some]
  unfold getCart
  simp only [c1]
  have hne : rom ≠ [] := by
    rintro rfl
    have := ((Ptron.C34_writer h0 h1 h2 padding limit fast).1 [] hrom).2
    obtain ⟨fs, _, hr⟩ := this
    obtain ⟨body, block, pad, _, _, _, _, he⟩ := hr
    simp at he
  rw [if_neg hne]
  exact hf

example : toBytes (set [[1], [2, 3]] 3 [4]) = some [0, 0, 0, 1, 1, 0, 0, 0, 2, 2, 3, 0, 0, 0, 0, 0, 0, 0, 1, 4] := by decide +kernel
example : parse (format [[1], [], [2, 3]]) = some [[1], [], [2, 3]] := ((C41_roundtrip _).2 _ rfl).2

/-! ## C58: the page -/

theorem hexVal_upper {c v : Nat} (h : hexVal c = some v) : v < 16 := by
  unfold hexVal at h
  repeat' split at h
  all_goals simp at h
  all_goals omega

theorem isHex_hexDigit {n : Nat} (h : n < 16) : isHex (hexDigit n) = true ∧ hexVal (hexDigit n) = some n := by
  have : ∀ n < 16, isHex (hexDigit n) = true ∧ hexVal (hexDigit n) = some n := by decide
  exact this n h

theorem fromHex_toHex {rom : List Nat} (h : ∀ b ∈ rom, b < 256) :
    fromHex (toHex rom) = some rom ∧ (toHex rom).all isHex = true ∧ (toHex rom).length = 2 * rom.length := by
  induction rom with
  | nil => exact ⟨rfl, rfl, rfl⟩
  | cons b s ih =>
    obtain ⟨i1, i2, i3⟩ := ih fun b hb => h b (by simp [hb])
    have hb := h b (by simp)
    obtain ⟨p1, p2⟩ := isHex_hexDigit (n := b / 16) (by omega)
    obtain ⟨q1, q2⟩ := isHex_hexDigit (n := b % 16) (by omega)
    refine ⟨?_, by simp [toHex, p1, q1, i2], by simp [toHex, i3]; omega⟩
    simp only [toHex, fromHex, p2, q2, i1, Option.bind_eq_bind, Option.bind_some, pure, Option.some.injEq, List.cons.injEq, and_true]
    omega

theorem takeWhile_stop {p : Nat → Bool} {u : List Nat} {c : Nat} {x y : List Nat} (hc : p c = false) :
    (u ++ c :: x).takeWhile p = (u ++ c :: y).takeWhile p ∧ ((u ++ c :: x).takeWhile p).length ≤ u.length := by
  induction u with
  | nil => simp [hc]
  | cons d u ih =>
    simp only [List.cons_append, List.takeWhile_cons]
    split
    · simp only [List.cons.injEq, true_and, List.length_cons]; exact ⟨ih.1, by omega⟩
    · simp

/-- Whether the pattern matches somewhere in front of an occurrence of its beginning does not depend on what follows. -/
theorem matchHere_before {w : List Nat} (hw : w ≠ []) (x y : List Nat) : matchHere (w ++ lit ++ x) = matchHere (w ++ lit ++ y) := by
  have hlit : lit.length = 13 := by decide
  have hp : ∀ z, w ++ lit ++ z = w ++ 112 :: (lit.tail ++ z) := by
    intro z; rw [List.append_assoc]; rfl
  rcases Nat.lt_or_ge w.length 13 with h | h
  · have no : ∀ z, lit.isPrefixOf (w ++ lit ++ z) = false := by
      intro z
      rw [Bool.eq_false_iff]
      intro hpre
      obtain ⟨t, ht⟩ := List.isPrefixOf_iff_prefix.mp hpre
      have h1 : (w ++ lit ++ z)[w.length]? = some 112 := by rw [hp]; simp
      rw [← ht, List.getElem?_append_left (by omega)] at h1
      have hpos : 0 < w.length := List.length_pos_iff.mpr hw
      have key : ∀ i < 13, 0 < i → lit[i]? ≠ some 112 := by decide
      exact key _ h hpos h1
    unfold matchHere
    rw [no, no]
    rfl
  · have pre : ∀ z, lit.isPrefixOf (w ++ lit ++ z) = lit.isPrefixOf w := by
      intro z
      rw [Bool.eq_iff_iff, List.isPrefixOf_iff_prefix, List.isPrefixOf_iff_prefix]
      constructor
      · intro hpre
        rw [List.append_assoc] at hpre
        rcases List.prefix_or_prefix_of_prefix hpre (List.prefix_append w _) with e | e
        · exact e
        · have := List.IsPrefix.eq_of_length_le e (by omega)
          rw [this]; exact List.prefix_refl _
      · intro e; exact e.trans (by rw [List.append_assoc]; exact List.prefix_append _ _)
    unfold matchHere
    rw [pre, pre]
    have hd : ∀ z, (w ++ lit ++ z).drop lit.length = w.drop 13 ++ 112 :: (lit.tail ++ z) := by
      intro z; rw [hp, hlit, List.drop_append_of_le_length h]
    simp only [hd]
    obtain ⟨t1, t2⟩ := takeWhile_stop (p := isHex) (u := w.drop 13) (c := 112) (x := lit.tail ++ x) (y := lit.tail ++ y) (by decide)
    rw [← t1]
    have hh : ((w.drop 13 ++ 112 :: (lit.tail ++ x)).drop ((w.drop 13 ++ 112 :: (lit.tail ++ x)).takeWhile isHex).length).head? =
        ((w.drop 13 ++ 112 :: (lit.tail ++ y)).drop ((w.drop 13 ++ 112 :: (lit.tail ++ x)).takeWhile isHex).length).head? := by
      rw [List.drop_append_of_le_length t2, List.drop_append_of_le_length t2]
      generalize (w.drop 13).drop _ = q
      cases q <;> rfl
    rw [hh]

theorem matchHere_some {s : List Nat} {n : Nat} (h : matchHere s = some n) :
    ∃ hex b, s = lit ++ hex ++ 34 :: b ∧ hex.length = n ∧ hex.all isHex = true := by
  unfold matchHere at h
  split at h
  · rename_i hp
    obtain ⟨t, rfl⟩ := List.isPrefixOf_iff_prefix.mp hp
    simp only [List.drop_left] at h
    split at h
    · rename_i hq
      simp only [Option.some.injEq] at h
      have hsplit : t = t.takeWhile isHex ++ t.drop (t.takeWhile isHex).length := by
        conv => lhs; rw [← List.takeWhile_append_dropWhile (p := isHex) (l := t)]
        congr 1
        have : t.drop (t.takeWhile isHex).length = (t.takeWhile isHex ++ t.dropWhile isHex).drop (t.takeWhile isHex).length := by
          rw [List.takeWhile_append_dropWhile]
        rw [this, List.drop_left]
      obtain ⟨b, hb⟩ : ∃ b, t.drop (t.takeWhile isHex).length = 34 :: b := by
        cases hd : t.drop (t.takeWhile isHex).length with
        | nil => rw [hd] at hq; simp at hq
        | cons c b => rw [hd] at hq; simp at hq; exact ⟨b, by rw [hq]⟩
      refine ⟨t.takeWhile isHex, b, ?_, h, List.all_takeWhile⟩
      conv => lhs; rw [hsplit, hb]
      rw [List.append_assoc]
    · cases h
  · cases h

theorem matchHere_hex {hex b : List Nat} (h : hex.all isHex = true) : matchHere (lit ++ hex ++ 34 :: b) = some hex.length := by
  unfold matchHere
  rw [if_pos (by rw [List.isPrefixOf_iff_prefix, List.append_assoc]; exact List.prefix_append _ _)]
  have ht : (hex ++ 34 :: b).takeWhile isHex = hex := by
    induction hex with
    | nil => rw [List.nil_append, List.takeWhile_cons]; simp [show isHex 34 = false from by decide]
    | cons c hex ih =>
      simp only [List.all_cons, Bool.and_eq_true] at h
      rw [List.cons_append, List.takeWhile_cons, if_pos h.1, ih h.2]
  simp only [List.append_assoc, List.drop_left, ht, List.head?_cons, if_true]

/-- `find_cart` finds the first place that fits. -/
theorem findCart_iff (text : List Nat) (i n : Nat) : findCart text = some (i, n) ↔
    ∃ u hex b, text = u ++ lit ++ hex ++ 34 :: b ∧ hex.all isHex = true ∧ n = hex.length ∧ i = u.length + 13 ∧
      ∀ j < u.length, matchHere (text.drop j) = none := by
  induction text generalizing i with
  | nil =>
    simp only [findCart]
    constructor
    · intro h; cases h
    · rintro ⟨u, hex, b, h, -⟩
      have := congrArg List.length h
      simp at this
  | cons c s ih =>
    simp only [findCart]
    cases hm : matchHere (c :: s) with
    | some k =>
      simp only [Option.some.injEq, Prod.mk.injEq]
      constructor
      · rintro ⟨rfl, rfl⟩
        obtain ⟨hex, b, h1, h2, h3⟩ := matchHere_some hm
        exact ⟨[], hex, b, h1, h3, h2.symm, rfl, by simp⟩
      · rintro ⟨u, hex, b, h1, h2, h3, h4, h5⟩
        have hu : u = [] := by
          cases u with
          | nil => rfl
          | cons d u => have := h5 0 (by simp); rw [List.drop_zero, hm] at this; cases this
        subst hu
        rw [h1, List.nil_append, matchHere_hex h2] at hm
        simp only [Option.some.injEq] at hm
        exact ⟨by rw [h4]; rfl, by omega⟩
    | none =>
      simp only [Option.map_eq_some_iff, Prod.mk.injEq]
      constructor
      · rintro ⟨⟨i', n'⟩, h1, h2, h3⟩
        simp only at h2 h3
        subst h2 h3
        obtain ⟨u, hex, b, e1, e2, e3, e4, e5⟩ := (ih i').mp h1
        refine ⟨c :: u, hex, b, by rw [e1]; rfl, e2, e3, by rw [e4]; simp, ?_⟩
        intro j hj
        cases j with
        | zero => exact hm
        | succ j => exact e5 j (by simpa using hj)
      · rintro ⟨u, hex, b, e1, e2, e3, e4, e5⟩
        cases u with
        | nil =>
          rw [e1, List.nil_append, matchHere_hex e2] at hm
          cases hm
        | cons d u =>
          simp only [List.cons_append, List.cons.injEq] at e1
          refine ⟨(u.length + 13, n), (ih _).mpr ⟨u, hex, b, e1.2, e2, e3, rfl, fun j hj => e5 (j + 1) (by simpa using hj)⟩, ?_, rfl⟩
          simp at e4; omega

/-- C58: putting a cart's bytes into a page changes only the digits of the first place that fits, which is found again and
has exactly these bytes. -/
theorem C58_put {text text' rom : List Nat} (hr : ∀ b ∈ rom, b < 256) (h : htmlPut text rom = some text') :
    ∃ a old b, text = a ++ old ++ 34 :: b ∧ old.all isHex = true ∧ text' = a ++ toHex rom ++ 34 :: b ∧
      findCart text = some (a.length, old.length) ∧ findCart text' = some (a.length, 2 * rom.length) ∧
      fromHex ((text'.drop a.length).take (2 * rom.length)) = some rom := by
  unfold htmlPut at h
  simp only [Option.map_eq_some_iff] at h
  obtain ⟨⟨i, n⟩, hf, rfl⟩ := h
  obtain ⟨u, hex, b, e1, e2, e3, e4, e5⟩ := (findCart_iff text i n).mp hf
  obtain ⟨r1, r2, r3⟩ := fromHex_toHex hr
  have hlit : lit.length = 13 := by decide
  have hnew : text.take i ++ toHex rom ++ text.drop (i + n) = u ++ lit ++ toHex rom ++ 34 :: b := by
    subst e1 e3 e4
    have h1 : (u ++ lit ++ hex ++ 34 :: b).take (u.length + 13) = u ++ lit := by
      rw [List.append_assoc (u ++ lit), List.take_left' (by simp [hlit])]
    have h2 : (u ++ lit ++ hex ++ 34 :: b).drop (u.length + 13 + hex.length) = 34 :: b := by
      rw [List.drop_left' (by simp [hlit]; omega)]
    rw [h1, h2]
  have hal : (u ++ lit).length = i := by rw [e4]; simp [hlit]
  refine ⟨u ++ lit, hex, b, e1, e2, hnew, by rw [hal, ← e3]; exact hf, ?_, ?_⟩
  · simp only [hnew, hal, findCart_iff]
    refine ⟨u, toHex rom, b, rfl, r2, r3.symm, e4, fun j hj => ?_⟩
    have hold := e5 j hj
    rw [e1] at hold
    have hdrop : ∀ z, (u ++ lit ++ z).drop j = u.drop j ++ lit ++ z := by
      intro z; rw [List.append_assoc, List.drop_append_of_le_length (by omega), List.append_assoc]
    have hne : u.drop j ≠ [] := by simp; omega
    rw [List.append_assoc (u ++ lit), hdrop] at hold ⊢
    rw [matchHere_before hne _ (hex ++ 34 :: b)]
    exact hold
  · rw [hnew, List.append_assoc, List.drop_left, List.take_left' r3]
    exact r1

theorem writeRom_bytes {cart : Ptron.Cart} (h0 : ∀ f ∈ cart.files, 0 ∉ f.1) (h1 : ∀ f ∈ cart.files, ∀ c ∈ f.1, c < 256)
    (h2 : ∀ f ∈ cart.files, ∀ d, f.2 = some d → ∀ c ∈ d, c < 256) {padding limit : Nat} {fast : Bool} {out : List Nat}
    (hw : Ptron.writeRom cart padding limit fast = some out) : ∀ c ∈ out, c < 256 := by
  unfold Ptron.writeRom at hw
  cases hb : Ptron.filesBytes (Ptron.sortFiles cart.files) with
  | none => simp [hb] at hw
  | some body =>
    have hp : (Ptron.sortFiles cart.files).Perm cart.files := Ptron.sortFiles_perm _
    have hbody : ∀ c ∈ body, c < 256 :=
      Ptron.entries_bytes (Ptron.filesBytes_entries (fun f hf => h0 f (hp.subset hf)) hb)
        (fun f hf => h1 f (hp.subset hf)) (fun f hf => h2 f (hp.subset hf))
    obtain ⟨block, e1, _, e3⟩ := Lz4.C33_writer fast hbody
    simp only [hb, Option.bind_eq_bind, Option.bind_some, e1] at hw
    split at hw
    · simp at hw
    · rw [Ptron.packU1] at hw
      by_cases hv : cart.version < 256
      · rw [if_pos hv] at hw
        by_cases hbl : block.length < 256 ^ 4
        · rw [Ptron.packU4 hbl] at hw
          simp only [Option.bind_some, pure, Option.some.injEq] at hw
          subst hw
          intro c hc
          simp only [List.mem_append, Ptron.romSig, List.mem_cons, List.not_mem_nil, or_false, List.mem_replicate] at hc
          rcases hc with (((hc | hc) | hc) | hc) | hc
          · omega
          · omega
          · omega
          · exact e3 c hc
          · omega
        · rw [Ptron.packU4_none hbl] at hw; simp at hw
      · rw [if_neg hv] at hw; simp at hw

/-- C58, with carts: a cart put into a page is read from it. -/
theorem C58_cart {cart : Ptron.Cart} (hn : (cart.files.map (·.1)).Nodup) (h0 : ∀ f ∈ cart.files, 0 ∉ f.1)
    (h1 : ∀ f ∈ cart.files, ∀ c ∈ f.1, c < 256) (h2 : ∀ f ∈ cart.files, ∀ d, f.2 = some d → ∀ c ∈ d, c < 256)
    {padding limit : Nat} {fast : Bool} {text text' : List Nat} (hs : htmlSet padding limit fast cart text = some text') (defVersion : Nat) (tiny : Bool) :
    ∃ files, htmlGet defVersion tiny text' = some ⟨cart.version, files⟩ ∧ files.Perm cart.files := by
  simp only [htmlSet, Option.bind_eq_bind, Option.bind_eq_some_iff] at hs
  obtain ⟨rom, hrom, hs⟩ := hs
  obtain ⟨files, hf, hp⟩ := Ptron.C34_roundtrip hn h0 h1 h2 hrom defVersion tiny
  obtain ⟨a, old, b, -, -, -, -, e1, e2⟩ := C58_put (writeRom_bytes h0 h1 h2 hrom) hs
  refine ⟨files, ?_, hp⟩
  simp only [htmlGet, e1, Option.bind_eq_bind, Option.bind_some, e2, hf]

/-- A page with an earlier text that does not fit. -/
example : htmlPut ("p64cart_str=\"x\" p64cart_str=\"0F\";".toList.map Char.toNat) [0xab, 1] =
    some ("p64cart_str=\"x\" p64cart_str=\"ab01\";".toList.map Char.toNat) := by decide +kernel

end Verif.SysRom
