import Verif.Pxu
import Verif.Props.Binary
import Verif.NumLemmas
import Verif.PxaLemmas
/-! Lemmas about compressed userdata. -/
namespace Verif.Pxu

/-- `mtf` stays a permutation of the slot numbers, so that `mtf.index(index)` (picotron_fs.py 245, 367) finds them all. -/
theorem mtf_perm {mtf : List Nat} {k index : Nat} (h : mtf.Perm (List.range k)) (hi : index < k) :
    index ∈ mtf ∧ (updateMtf mtf (mtf.idxOf index) index).Perm (List.range k) := by
  have hm : index ∈ mtf := h.symm.subset (by simpa using hi)
  refine ⟨hm, (updateMtf_perm _ _ _ ?_).trans h⟩
  rw [List.getElem?_eq_getElem (List.idxOf_lt_length_iff.mpr hm)]
  simp

theorem readExt_extBytes (c : Nat) (tail : List Nat) :
    readExt (extBytes c ++ tail) = some (c, tail) ∧ ∀ b ∈ extBytes c, b < 256 := by
  fun_induction extBytes c with
  | case1 c h ih =>
    obtain ⟨i1, i2⟩ := ih
    constructor
    · simp only [List.cons_append, readExt, if_true, i1, Option.map_some, Option.some.injEq, Prod.mk.injEq, and_true]
      omega
    · intro b hb
      rcases List.mem_cons.mp hb with rfl | hb
      · omega
      · exact i2 b hb
  | case2 c h =>
    constructor
    · simp only [List.cons_append, List.nil_append, readExt]
      rw [if_neg (by omega)]
    · intro b hb; simp at hb; omega

theorem takeRun_spec (v : Nat) (l : List Nat) : l = List.replicate (takeRun v l).1 v ++ (takeRun v l).2 := by
  induction l with
  | nil => simp [takeRun]
  | cons x xs ih =>
    unfold takeRun
    split
    · rename_i h
      subst h
      simp only [List.replicate_succ, List.cons_append]
      rw [← ih]
    · simp

theorem elem_spec {n v : Nat} (h : v < 256 ^ n) : ∃ b, packU false n v = some b ∧ b.length = n ∧ (∀ x ∈ b, x < 256) ∧
    ∀ tail, readElem n (b ++ tail) = some (v, tail) := by
  obtain ⟨h1, h2⟩ := C52_unsigned false n (v : Int)
  obtain ⟨b, hb⟩ := Option.isSome_iff_exists.mp (h1.mpr ⟨by omega, by exact_mod_cast h⟩)
  obtain ⟨e1, e2, e3⟩ := h2 b hb
  refine ⟨b, hb, e1, e2, fun tail => ?_⟩
  rw [readElem, e3 tail]; simp

theorem findValue_spec {n bits value : Nat} {mapping mtf : List Nat} (hm : mapping.length = 2 ^ bits - 1)
    (hmtf : mtf.Perm (List.range (2 ^ bits - 1))) :
    (findValue bits value mapping mtf).1 < 2 ^ bits ∧
    (findValue bits value mapping mtf).2.1.length = 2 ^ bits - 1 ∧
    (findValue bits value mapping mtf).2.2.Perm (List.range (2 ^ bits - 1)) ∧
    ∀ r, value < 256 ^ n → readValue n bits (findValue bits value mapping mtf).1 mapping mtf
      ((if (findValue bits value mapping mtf).1 = 2 ^ bits - 1 then leBytes n value else []) ++ r) =
        some (value, (findValue bits value mapping mtf).2.1, (findValue bits value mapping mtf).2.2, r) := by
  have hpos : 0 < 2 ^ bits := Nat.two_pow_pos bits
  unfold findValue
  cases hf : mapping.idxOf? value with
  | none =>
    simp only
    refine ⟨by omega, ?_, hmtf, fun r hv => ?_⟩
    · split <;> simp [hm]
    · obtain ⟨b, h1, h2, h3, h4⟩ := elem_spec hv
      have hb : b = leBytes n value := by
        unfold packU at h1
        rw [if_pos ⟨by omega, by exact_mod_cast hv⟩] at h1
        simpa using h1.symm
      unfold readValue
      simp only [if_true, ← hb, h4 r, Option.bind_eq_bind, Option.bind_some, pure]
  | some index =>
    simp only
    obtain ⟨hlt, hget⟩ : ∃ h : index < mapping.length, mapping[index] = value := by
      rw [List.idxOf?_eq_some_iff] at hf
      exact ⟨hf.1, by simpa using hf.2.1⟩
    have hne : index ≠ 2 ^ bits - 1 := by omega
    refine ⟨by omega, hm, (mtf_perm hmtf (by omega)).2, fun r _ => ?_⟩
    rw [if_neg hne, List.nil_append]
    unfold readValue
    rw [if_neg hne, List.getElem?_eq_getElem hlt, hget]
    rfl

section
attribute [local irreducible] runBytes
theorem writeRuns_nil (n bits fuel : Nat) (mapping mtf : List Nat) : writeRuns n bits fuel mapping mtf [] = some [] := by
  cases fuel <;> rfl

theorem writeRuns_cons (n bits fuel : Nat) (mapping mtf : List Nat) (value : Nat) (data : List Nat) :
    writeRuns n bits (fuel + 1) mapping mtf (value :: data) =
      match runBytes n bits (findValue bits value mapping mtf).1 value ((takeRun value data).1 + 1) with
      | none => none
      | some b => (writeRuns n bits fuel (findValue bits value mapping mtf).2.1 (findValue bits value mapping mtf).2.2
          (takeRun value data).2).map (b ++ ·) := rfl
end

theorem readRuns_done {n bits size : Nat} {acc mapping mtf tail : List Nat} (f : Nat)
    (h : acc.length + ([] : List Nat).length = size) :
    readRuns n bits size f acc mapping mtf ([] ++ tail) = some (acc ++ [], tail) := by
  have hn : ¬ acc.length < size := by rw [List.length_nil] at h; omega
  cases f <;> simp only [readRuns, hn, if_false, List.append_nil, List.nil_append]

theorem runs_roundtrip {n bits : Nat} (hbits : bits ≤ 8) (fuel : Nat) (data : List Nat) (hfuel : data.length ≤ fuel)
    (hd : ∀ v ∈ data, v < 256 ^ n) (mapping mtf : List Nat) (hm : mapping.length = 2 ^ bits - 1)
    (hmtf : mtf.Perm (List.range (2 ^ bits - 1))) :
    ∃ b, writeRuns n bits fuel mapping mtf data = some b ∧ (∀ x ∈ b, x < 256) ∧
      ∀ acc tail size f, acc.length + data.length = size → data.length ≤ f →
        readRuns n bits size f acc mapping mtf (b ++ tail) = some (acc ++ data, tail) := by
  induction fuel generalizing data mapping mtf with
  | zero =>
    have : data = [] := by cases data <;> simp_all
    subst this
    refine ⟨[], writeRuns_nil .., by simp, fun acc tail size f h1 h2 => ?_⟩
    exact readRuns_done f h1
  | succ fuel ih =>
    cases data with
    | nil =>
      refine ⟨[], writeRuns_nil .., by simp, fun acc tail size f h1 h2 => ?_⟩
      exact readRuns_done f h1
    | cons value data =>
      have hsplit := takeRun_spec value data
      obtain ⟨f1, f2, f3, f4⟩ := findValue_spec (n := n) (value := value) hm hmtf
      have hv : value < 256 ^ n := hd value (by simp)
      have hrest : (takeRun value data).2.length + (takeRun value data).1 = data.length := by
        conv => rhs; rw [hsplit]
        simp; omega
      simp only [List.length_cons] at hfuel
      obtain ⟨bs, r1, r2, r3⟩ := ih (takeRun value data).2 (by omega) (by
        intro v hv'
        exact hd v (by rw [List.mem_cons]; right; rw [hsplit]; simp [hv'])) _ _ f2 f3
      generalize hF : findValue bits value mapping mtf = F at *
      obtain ⟨index, mapping', mtf'⟩ := F
      simp only at f1 f2 f3 f4 r1 r3
      generalize hR : takeRun value data = R at *
      obtain ⟨count, rest⟩ := R
      simp only at hsplit hrest r1 r3
      -- the first byte
      have hpow : 2 ^ bits * 2 ^ (8 - bits) = 256 := by rw [← Nat.pow_add, show bits + (8 - bits) = 8 from by omega]
      have hpos : 0 < 2 ^ bits := Nat.two_pow_pos bits
      have hpos2 : 0 < 2 ^ (8 - bits) := Nat.two_pow_pos _
      generalize hP : 2 ^ bits = P at *
      generalize hQ : 2 ^ (8 - bits) = Q at *
      have hhead : index ||| ((min (count + 1) Q - 1) <<< bits) = index + (min (count + 1) Q - 1) * P := by
        rw [or_shift_eq_add _ (k := bits) (by rw [hP]; exact f1), hP]
      have hm1 : min (count + 1) Q - 1 + 1 ≤ Q := by omega
      have hlt : index + (min (count + 1) Q - 1) * P < 256 := by
        have h1 : (min (count + 1) Q - 1 + 1) * P ≤ Q * P := Nat.mul_le_mul_right P hm1
        rw [Nat.mul_comm Q P, hpow, Nat.add_mul] at h1
        omega
      have hel : ∃ e, (if index = P - 1 then packU false n (value : Int) else some []) = some e ∧
          (∀ x ∈ e, x < 256) ∧ e = if index = P - 1 then leBytes n value else [] := by
        split
        · obtain ⟨b, h1, h2, h3, h4⟩ := elem_spec hv
          refine ⟨b, h1, h3, ?_⟩
          unfold packU at h1
          rw [if_pos ⟨by omega, by exact_mod_cast hv⟩] at h1
          simpa using h1.symm
        · exact ⟨[], rfl, by simp, rfl⟩
      obtain ⟨e, he1, he2, he3⟩ := hel
      have hrun : runBytes n bits index value (count + 1) =
          some ([index + (min (count + 1) Q - 1) * P] ++ e ++ (if Q ≤ count + 1 then extBytes (count + 1 - Q) else [])) := by
        unfold runBytes
        simp only [hP, hQ, hhead]
        have : packU false 1 (((index + (min (count + 1) Q - 1) * P : Nat)) : Int) =
            some [index + (min (count + 1) Q - 1) * P] := by
          unfold packU
          rw [if_pos ⟨by omega, by simp; omega⟩]
          simp [leBytes]; omega
        rw [this]
        by_cases hi : index = P - 1
        · rw [if_pos hi] at he1
          simp only [if_pos hi, he1, Option.bind_eq_bind, Option.bind_some, pure]
        · rw [if_neg hi, Option.some.injEq] at he1
          subst he1
          simp only [if_neg hi, Option.bind_eq_bind, Option.bind_some, pure]
      refine ⟨([index + (min (count + 1) Q - 1) * P] ++ e ++ (if Q ≤ count + 1 then extBytes (count + 1 - Q) else [])) ++ bs,
        ?_, ?_, ?_⟩
      · 
        simp only [writeRuns_cons, hF, hR, hrun, r1]
        rfl
      · intro x hx
        simp only [List.mem_append, List.mem_singleton] at hx
        rcases hx with ((hx | hx) | hx) | hx
        · omega
        · exact he2 x hx
        · split at hx
          · exact (readExt_extBytes _ []).2 x hx
          · simp at hx
        · exact r2 x hx
      · intro acc tail size f hsize hf
        cases f with
        | zero => simp at hf
        | succ f =>
          simp only [List.length_cons] at hsize hf
          have hlow : (index + (min (count + 1) Q - 1) * P) &&& (P - 1) = index := by
            rw [← hP, Nat.and_two_pow_sub_one_eq_mod, hP, Nat.add_mul_mod_self_right, Nat.mod_eq_of_lt f1]
          have hhigh : (index + (min (count + 1) Q - 1) * P) >>> bits = min (count + 1) Q - 1 := by
            rw [Nat.shiftRight_eq_div_pow, hP, Nat.add_mul_div_right _ _ hpos, Nat.div_eq_of_lt f1, Nat.zero_add]
          have hread := f4 ((if Q ≤ count + 1 then extBytes (count + 1 - Q) else []) ++ (bs ++ tail)) hv
          rw [← he3] at hread
          have hl : acc.length < size := by omega
          have hfin := r3 (acc ++ List.replicate (count + 1) value) tail size f (by simp; omega) (by omega)
          have hend : acc ++ List.replicate (count + 1) value ++ rest = acc ++ value :: data := by
            rw [hsplit, List.replicate_succ]; simp
          rw [hend] at hfin
          simp only [readRuns, hl, if_true, List.append_assoc, List.cons_append, List.nil_append, hlow, hhigh, hP, hQ,
            hread, Option.bind_eq_bind, Option.bind_some]
          by_cases hc : Q ≤ count + 1
          · rw [if_pos hc, if_pos (by omega), (readExt_extBytes _ _).1]
            simp only [Option.map_some, Option.bind_some]
            rw [show 1 + (min (count + 1) Q - 1) + (count + 1 - Q) = count + 1 from by omega]
            exact hfin
          · rw [if_neg hc, if_neg (by omega)]
            simp only [List.nil_append]
            rw [show 1 + (min (count + 1) Q - 1) = count + 1 from by omega]
            exact hfin

theorem parseHex_padDigits {k v : Nat} (hk : 0 < k) (h : v < 16 ^ k) : parseHex (padDigits 16 k v) = some v := by
  unfold parseHex
  have hne : padDigits 16 k v ≠ [] := by
    intro e; have := padDigits_length 16 k v; rw [e] at this; simp at this; omega
  rw [if_neg hne]
  have key : ∀ (l : List Nat), (∀ c ∈ l, isBaseDigit 16 c = true) →
      ∃ ds, l.mapM hexVal = some ds ∧ ∀ a, ds.foldl (fun a d => a * 16 + d) a = l.foldl (fun a c => a * 16 + (hexVal c).getD 0) a := by
    intro l
    induction l with
    | nil => intro _; exact ⟨[], by simp⟩
    | cons c l ih =>
      intro hl
      obtain ⟨ds, h1, h2⟩ := ih fun c hc => hl c (by simp [hc])
      have hc := hl c (by simp)
      unfold isBaseDigit at hc
      cases hv : hexVal c with
      | none => simp [hv] at hc
      | some d => exact ⟨d :: ds, by simp [hv, h1], fun a => by simp [hv, h2]⟩
  obtain ⟨ds, h1, h2⟩ := key _ (padDigits_digit (by omega) (by omega) k v)
  rw [h1, Option.map_some, h2 0]
  have := padDigits_val (b := 16) (by omega) (by omega) k v
  unfold digitsVal at this
  rw [this, Nat.mod_eq_of_lt h]

theorem parseElems_hexText {n : Nat} (hn : 0 < n) {data : List Nat} (hd : ∀ v ∈ data, v < 256 ^ n) :
    parseElems (2 * n) (hexText n data) = some data := by
  have h16 : (256 : Nat) ^ n = 16 ^ (2 * n) := by rw [Nat.pow_mul]
  induction data with
  | nil => unfold parseElems hexText; simp
  | cons v data ih =>
    have hl := padDigits_length 16 (2 * n) v
    unfold hexText
    rw [List.flatMap_cons]
    unfold parseElems
    rw [dif_neg (by
      intro h
      rcases h with h | h
      · have := congrArg List.length h; simp [hl] at this; omega
      · omega)]
    rw [List.take_left' hl, List.drop_left' hl, parseHex_padDigits (by omega) (by rw [← h16]; exact hd v (by simp))]
    have := ih fun v hv => hd v (by simp [hv])
    unfold hexText at this
    rw [this]
    rfl

theorem hexDigit_hexVal {c : Nat} (h : (48 ≤ c ∧ c ≤ 57) ∨ (97 ≤ c ∧ c ≤ 102)) :
    ∃ d, d < 16 ∧ hexVal c = some d ∧ hexDigit d = c := by
  unfold hexVal hexDigit
  rcases h with h | h
  · exact ⟨c - 48, by omega, by rw [if_pos h], by rw [if_pos (by omega)]; omega⟩
  · exact ⟨c - 87, by omega, by rw [if_neg (by omega), if_pos h], by rw [if_neg (by omega)]; omega⟩

theorem digitsVal_snoc (s : List Nat) (c : Nat) : digitsVal 16 (s ++ [c]) = digitsVal 16 s * 16 + (hexVal c).getD 0 := by
  simp [digitsVal]

/-- Lower case hexadecimal digits are the padded digits of their value. -/
theorem padDigits_digitsVal (k : Nat) : ∀ (s : List Nat), s.length = k →
    (∀ c ∈ s, (48 ≤ c ∧ c ≤ 57) ∨ (97 ≤ c ∧ c ≤ 102)) →
    padDigits 16 k (digitsVal 16 s) = s ∧ digitsVal 16 s < 16 ^ k := by
  induction k with
  | zero => intro s hs _; have : s = [] := by simpa using hs
            subst this; simp [padDigits, digitsVal]
  | succ k ih =>
    intro s hs hc
    have hne : s ≠ [] := by intro e; simp [e] at hs
    obtain ⟨t, c, rfl⟩ : ∃ t c, s = t ++ [c] := ⟨s.dropLast, s.getLast hne, (List.dropLast_concat_getLast hne).symm⟩
    obtain ⟨d, h1, h2, h3⟩ := hexDigit_hexVal (hc c (by simp))
    obtain ⟨i1, i2⟩ := ih t (by simpa using hs) fun c h => hc c (by simp [h])
    rw [digitsVal_snoc, h2, Option.getD_some, padDigits, show (digitsVal 16 t * 16 + d) / 16 = digitsVal 16 t from by omega,
      show (digitsVal 16 t * 16 + d) % 16 = d from by omega, i1, h3]
    refine ⟨rfl, ?_⟩
    rw [Nat.pow_succ]; omega

theorem hexText_surj {n : Nat} (k : Nat) : ∀ (s : List Nat), s.length = 2 * n * k →
    (∀ c ∈ s, (48 ≤ c ∧ c ≤ 57) ∨ (97 ≤ c ∧ c ≤ 102)) →
    ∃ l, l.length = k ∧ (∀ v ∈ l, v < 256 ^ n) ∧ hexText n l = s := by
  have h16 : (256 : Nat) ^ n = 16 ^ (2 * n) := by rw [Nat.pow_mul]
  induction k with
  | zero => intro s hs _; have : s = [] := by simpa using hs
            subst this; exact ⟨[], by simp [hexText]⟩
  | succ k ih =>
    intro s hs hc
    rw [Nat.mul_succ] at hs
    obtain ⟨l, h1, h2, h3⟩ := ih (s.drop (2 * n)) (by simp; omega) fun c h => hc c (List.mem_of_mem_drop h)
    obtain ⟨p1, p2⟩ := padDigits_digitsVal (2 * n) (s.take (2 * n)) (by simp; omega) fun c h => hc c (List.mem_of_mem_take h)
    refine ⟨digitsVal 16 (s.take (2 * n)) :: l, by simp [h1], ?_, ?_⟩
    · intro v hv
      rcases List.mem_cons.mp hv with rfl | hv
      · rw [h16]; exact p2
      · exact h2 v hv
    · unfold hexText at h3 ⊢
      rw [List.flatMap_cons, h3, p1, List.take_append_drop]

end Verif.Pxu
