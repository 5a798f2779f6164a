import Verif.IconsLemmas
import Verif.ZstrLemmas
/-! C85: the icons of exported programs. -/
namespace Verif.Icons
open IconSpec

/-- What is read of the headers. -/
theorem headers_of {d : List Nat} {r : Option Nat} (h : findIcon d = some r) :
    ∃ pe n o, (∀ m dirs v, u16At d (pe + 24) = some m → ((m = 0x10b ∧ dirs = 96) ∨ (m = 0x20b ∧ dirs = 112)) → u32At d (pe + 24 + dirs + 16) = some v →
      Headers d n (pe + 24 + o) v) ∧ findIconFrom d pe n o = some r := by
  unfold findIcon at h
  split at h
  · next hmz =>
    split at h
    · cases h
    · next pe hpe =>
      split at h
      · next hsig =>
        split at h
        · next n o x h1 h2 h3 =>
          refine ⟨pe, n, o, fun m dirs v hm hd hv => ?_, h⟩
          obtain ⟨g0, g1, g2, g3⟩ := bytes4.1 hsig
          exact ⟨bytes2.1 hmz, pe, o, m, dirs, u32At_iff.1 hpe, g0, g1, g2, g3, u16At_iff.1 h1, u16At_iff.1 h2, rfl, u16At_iff.1 hm, hd, u32At_iff.1 hv⟩
        · cases h
      · cases h
  · cases h

/-- **C85 (icon in a program, found).** The position that is found in a Windows program is that of the pixels of its English icon number 1, which has the size
of an icon of 128 by 128 pixels with 32 bits: 40 bytes of header, the pixels, and the mask. -/
theorem C85_exe_sound {d : List Nat} (hd : ∀ x ∈ d, x < 256) {p : Nat} (h : findIcon d = some (some p)) :
    ∃ o, p = o + 40 ∧ IconAt d o (40 + 128 * 128 * 4 + 128 * 128 / 8) := by
  obtain ⟨pe, n, o, hh, hf⟩ := headers_of h
  unfold findIconFrom at hf
  split at hf
  · cases hf
  · next m hm =>
    split at hf
    · next hmm =>
      split at hf
      · next rva ss hr hs =>
        have hH : Headers d n (pe + 24 + o) rva := by
          rcases hmm with e | e
          · refine hh m 96 rva hm (.inl ⟨e, rfl⟩) ?_
            rw [if_neg (by omega)] at hr
            exact hr
          · refine hh m 112 rva hm (.inr ⟨e, rfl⟩) ?_
            rw [if_pos e] at hr
            exact hr
        split at hf
        · cases hf
        · next rsrc hrsrc =>
          unfold findIconIn at hf
          split at hf
          · cases hf
          · cases hf
          · next entry he =>
            split at hf
            · cases hf
            · next hlow =>
              split at hf
              · next irva size h1 h2 =>
                split at hf
                · cases hf
                · next hsize =>
                  simp only [ne_eq, Decidable.not_not] at hsize
                  subst hsize
                  simp only [Option.map_eq_some_iff, Option.some.injEq] at hf
                  obtain ⟨q, hq, rfl⟩ := hf
                  refine ⟨q, rfl, n, pe + 24 + o, rva, rsrc, rsrc + entry, irva, hH, rva_at hs hrsrc, ?_, u32At_iff.1 h1, u32At_iff.1 h2, rva_at hs hq⟩
                  cases e1 : findEntry d rsrc 0x80000000 3 with
                  | none => rw [e1] at he; simp [thenEntry] at he
                  | some x1 =>
                    cases x1 with
                    | none => rw [e1] at he; simp [thenEntry] at he
                    | some v1 =>
                      rw [e1] at he
                      simp only [thenEntry] at he
                      cases e2 : findEntry d rsrc v1 1 with
                      | none => rw [e2] at he; simp at he
                      | some x2 =>
                        cases x2 with
                        | none => rw [e2] at he; simp at he
                        | some v2 =>
                          rw [e2] at he
                          simp only at he
                          obtain ⟨a0, ha0, E1⟩ := entry_some (by decide) e1
                          have h0 : a0 = 0 := by omega
                          subst h0
                          have f1 : v1 < 4294967296 := by
                            obtain ⟨_, _, _, _, _, _, _, g⟩ := E1
                            exact u32_fits hd g
                          obtain ⟨a, rfl, E2⟩ := entry_some f1 e2
                          have f2 : v2 < 4294967296 := by
                            obtain ⟨_, _, _, _, _, _, _, g⟩ := E2
                            exact u32_fits hd g
                          obtain ⟨b, rfl, E3⟩ := entry_some f2 he
                          exact ⟨a, b, entry, E1, E2, E3, by omega, rfl⟩
              · cases hf
      · cases hf
    · cases hf

/-- **C85 (icon in a program, complete).** In a proper program that has such an icon, it is found. -/
theorem C85_exe_found {d : List Nat} (hp : Proper d) {o : Nat} (h : IconAt d o (40 + 128 * 128 * 4 + 128 * 128 / 8)) : findIcon d = some (some (o + 40)) := by
  obtain ⟨n, table, rsrcRva, rsrc, q, rva, hH, hA, ⟨a, b, c, E1, E2, E3, hc, rfl⟩, hrva, hsize, hI⟩ := h
  have htab := hp.table _ _ _ hH
  have hsec := hp.sections _ _ _ hH
  have hent := hp.entries _ _ _ _ hH hA
  have D1 : Dir d rsrc rsrc := .root
  have D2 : Dir d rsrc (rsrc + a) := .sub D1 E1
  have D3 : Dir d rsrc (rsrc + b) := .sub D2 E2
  have big : ∀ {dir id v}, Entry d dir id v → v < 4294967296 := by
    rintro dir id v ⟨_, _, _, _, _, _, _, g⟩
    exact u32_fits hp.bytes g
  have fa := big E1
  have fb := big E2
  obtain ⟨ss, hs⟩ := readSections_some htab
  -- the entries
  have G1 : findEntry d rsrc 2147483648 3 = some (some (2147483648 + a)) := by
    obtain ⟨v, hv⟩ := entry_found (a := 0) (by decide) E1
    obtain ⟨a0, ha0, E⟩ := entry_some (by decide) hv
    have h0 : a0 = 0 := by omega
    subst h0
    rw [hent _ D1 _ _ _ E1 E]
    exact hv
  have G2 : findEntry d rsrc (2147483648 + a) 1 = some (some (2147483648 + b)) := by
    obtain ⟨v, hv⟩ := entry_found (a := a) (by omega) E2
    obtain ⟨a0, ha0, E⟩ := entry_some fa hv
    have h0 : a0 = a := by omega
    subst h0
    rw [hent _ D2 _ _ _ E2 E]
    exact hv
  have G3 : findEntry d rsrc (2147483648 + b) 0x409 = some (some c) := by
    obtain ⟨v, hv⟩ := entry_found (a := b) (by omega) E3
    obtain ⟨a0, ha0, E⟩ := entry_some fb hv
    have h0 : a0 = b := by omega
    subst h0
    rw [hent _ D3 _ _ _ E3 E]
    exact hv
  have R1 : rvaToOffset ss rsrcRva = some rsrc := by
    obtain ⟨q, hq⟩ := at_rva hs hA
    rw [hsec _ _ _ hA (rva_at hs hq)]
    exact hq
  have R2 : rvaToOffset ss rva = some o := by
    obtain ⟨q, hq⟩ := at_rva hs hI
    rw [hsec _ _ _ hI (rva_at hs hq)]
    exact hq
  have In : findIconIn d ss rsrc = some (some (o + 40)) := by
    unfold findIconIn
    have e : thenEntry d rsrc 0x409 (thenEntry d rsrc 1 (findEntry d rsrc 2147483648 3)) = some (some c) := by
      rw [G1]
      show thenEntry d rsrc 0x409 (findEntry d rsrc (2147483648 + a) 1) = _
      rw [G2]
      exact G3
    rw [e]
    have hn : ¬ 0x80000000 ≤ c := by omega
    simp only
    rw [if_neg hn, u32At_iff.2 hrva, u32At_iff.2 hsize]
    simp only
    rw [if_neg (by decide), R2]
    rfl
  obtain ⟨hmz, pe, optSize, magic, dirs, hpe, s0, s1, s2, s3, hn, ho, rfl, hm, hdirs, hr⟩ := hH
  have hfrom : findIconFrom d pe n optSize = some (some (o + 40)) := by
    unfold findIconFrom
    rw [show pe + 24 = pe + 4 + 20 by omega, u16At_iff.2 hm]
    simp only
    have hmm : magic = 0x10b ∨ magic = 0x20b := by rcases hdirs with ⟨e, -⟩ | ⟨e, -⟩ <;> simp [e]
    have epos : u32At d (pe + 26 + if magic = 0x20b then 126 else 110) = some rsrcRva := by
      rcases hdirs with ⟨rfl, rfl⟩ | ⟨rfl, rfl⟩
      · rw [if_neg (by decide)]
        exact u32At_iff.2 hr
      · rw [if_pos rfl]
        exact u32At_iff.2 hr
    rw [if_pos hmm, epos, hs]
    simp only
    rw [R1]
    exact In
  have hx : ∃ x, u16At d (pe + 22) = some x := by
    obtain ⟨_, _, g, -⟩ := hm
    have := (List.getElem?_eq_some_iff.1 g).1
    unfold u16At bytesAt
    rw [if_pos (by omega)]
    exact ⟨_, rfl⟩
  obtain ⟨x, hx⟩ := hx
  unfold findIcon
  rw [if_pos (bytes2.2 hmz), show (0x3c : Nat) = 60 from rfl, u32At_iff.2 hpe]
  simp only
  rw [if_pos (bytes4.2 ⟨s0, s1, s2, s3⟩), show pe + 6 = pe + 4 + 2 by omega, u16At_iff.2 hn, show pe + 20 = pe + 4 + 16 by omega, u16At_iff.2 ho, hx]
  exact hfrom

/-- **C85 (icon in a program, replaced).** The exported program is the original one where the pixels of the icon are those given, provided that the file has all
of the icon. -/
theorem C85_exe_replaced {d : List Nat} (hp : Proper d) {o : Nat} (h : IconAt d o (40 + 128 * 128 * 4 + 128 * 128 / 8)) {bmp : List Nat}
    (hb : bmp.length = 128 * 128 * 4) (hl : o + 40 + 128 * 128 * 4 ≤ d.length) :
    ∃ d', setExeIcon d bmp = some d' ∧ d'.length = d.length ∧
      ∀ i, d'[i]? = if o + 40 ≤ i ∧ i < o + 40 + 128 * 128 * 4 then bmp[i - (o + 40)]? else d[i]? := by
  have hlt : (d.take (o + 40)).length = o + 40 := by rw [List.length_take]; omega
  refine ⟨replaceAt d (o + 40) 0x10000 bmp, ?_, ?_, fun i => ?_⟩
  · unfold setExeIcon
    rw [C85_exe_found hp h]
  · unfold replaceAt
    rw [List.length_append, List.length_append, hlt, List.length_drop, hb]
    omega
  · unfold replaceAt
    rw [List.append_assoc]
    by_cases h1 : i < o + 40
    · rw [if_neg (by omega), List.getElem?_append_left (by omega), List.getElem?_take, if_pos h1]
    · rw [List.getElem?_append_right (by omega), hlt]
      by_cases h2 : i < o + 40 + 128 * 128 * 4
      · rw [if_pos ⟨by omega, h2⟩, List.getElem?_append_left (by omega)]
      · rw [if_neg (by omega), List.getElem?_append_right (by omega), List.getElem?_drop, hb]
        have e : o + 40 + 0x10000 + (i - (o + 40) - 128 * 128 * 4) = i := by omega
        rw [e]

/-! ### Apple icons -/

/-- **C85 (Apple icon).** The file that is made from the pixels of an image (three or four bytes each) is an icon file with that image: pixel `i` has its red,
green and blue, and the mask is the fourth byte, or opaque if there are only three. -/
theorem C85_icns {raw : List Nat} {alpha : Bool} (h : raw.length = 128 * 128 * (if alpha then 4 else 3)) :
    ∃ bs r g b mask, createIcns raw alpha = some bs ∧ Icon r g b mask bs ∧ ∀ i, i < 128 * 128 →
      r[i]? = raw[i * (if alpha then 4 else 3)]? ∧ g[i]? = raw[i * (if alpha then 4 else 3) + 1]? ∧ b[i]? = raw[i * (if alpha then 4 else 3) + 2]? ∧
      mask[i]? = if alpha then raw[i * 4 + 3]? else some 255 := by
  obtain ⟨n, hn⟩ : ∃ n, n = if alpha then 4 else 3 := ⟨_, rfl⟩
  rw [← hn] at h ⊢
  have hn3 : 3 ≤ n ∧ n ≤ 4 := by cases alpha <;> simp at hn <;> omega
  have hi : ∀ chan, chan < n → ∀ i, i < 16384 → i * n + chan < raw.length := by
    intro chan hc i hi
    rw [h]
    have : (i + 1) * n ≤ 16384 * n := Nat.mul_le_mul_right _ (by omega)
    rw [Nat.add_mul] at this
    omega
  obtain ⟨r, er, lr, wr, gr⟩ := icnsChan_ok [0x7f] (hi 0 (by omega))
  obtain ⟨g, eg, lg, wg, gg⟩ := icnsChan_ok [0x7f] (hi 1 (by omega))
  obtain ⟨b, eb, lb, wb, gb⟩ := icnsChan_ok [0x7f] (hi 2 (by omega))
  have hmask : ∃ mask, (if alpha then icnsChan [] raw n 3 else some (List.replicate (0x80 * 0x80) 0xff)) = some mask ∧ mask.length = 16384 ∧
      ∀ i, i < 16384 → mask[i]? = if alpha then raw[i * 4 + 3]? else some 255 := by
    cases alpha with
    | false =>
      refine ⟨_, rfl, List.length_replicate, fun i hi => ?_⟩
      rw [List.getElem?_replicate, if_pos hi]
      rfl
    | true =>
      have hn4 : n = 4 := by simpa using hn
      subst hn4
      obtain ⟨a, ea, la, wa, ga⟩ := icnsChan_ok [] (hi 3 (by omega))
      have e : a.map (([] : List Nat) ++ ·) = a := by simp
      rw [e] at ea
      exact ⟨a.flatten, by simpa using ea, by rw [flatten_len wa, la], fun i hi => by simpa using ga i hi⟩
  obtain ⟨mask, em, lm, gm⟩ := hmask
  obtain ⟨bs, hbs, hfile⟩ := createIcns_file hn er eg eb em (by rw [rows_len lr wr]; rfl) (by rw [rows_len lg wg]; rfl) (by rw [rows_len lb wb]; rfl) lm
  refine ⟨bs, r.flatten, g.flatten, b.flatten, mask, hbs, ⟨⟨by rw [flatten_len wr, lr], by rw [flatten_len wg, lg], by rw [flatten_len wb, lb], lm⟩, _, ?_, hfile⟩,
    fun i hi => ⟨gr i hi, gg i hi, gb i hi, gm i hi⟩⟩
  exact packed_append (packed_append (packed_rows wr) (packed_rows wg)) (packed_rows wb)

/-- A picture of 128 by 128 pixels, from red at the top to black. -/
def fading : List Nat := (List.range (128 * 128)).flatMap fun i => [255 - i / 64, 0, 0]

example : ∃ bs r g b mask, createIcns fading false = some bs ∧ Icon r g b mask bs ∧ r[0]? = some 255 ∧ r[127 * 128]? = some 1 ∧ mask[5]? = some 255 := by
  have hl : fading.length = 128 * 128 * 3 := by
    have : ∀ l : List Nat, (l.flatMap fun i => [255 - i / 64, 0, 0]).length = l.length * 3 := by
      intro l
      induction l with
      | nil => rfl
      | cons x l ih => rw [List.flatMap_cons, List.length_append, ih, List.length_cons]; simp; omega
    rw [fading, this, List.length_range]
  obtain ⟨bs, r, g, b, mask, h1, h2, h3⟩ := C85_icns (alpha := false) hl
  refine ⟨bs, r, g, b, mask, h1, h2, ?_, ?_, ?_⟩
  · rw [(h3 0 (by decide)).1]; decide +kernel
  · rw [(h3 (127 * 128) (by decide)).1]; decide +kernel
  · rw [(h3 5 (by decide)).2.2.2]; rfl

/-- **C85 (Apple icon, unique).** An icon file has only one image. -/
theorem C85_icns_unique {r g b mask r' g' b' mask' bs : List Nat} (h : Icon r g b mask bs) (h' : Icon r' g' b' mask' bs) :
    r = r' ∧ g = g' ∧ b = b' ∧ mask = mask' := by
  obtain ⟨⟨l1, l2, l3, -⟩, p, hp, s, body, e, hs, he⟩ := h
  obtain ⟨⟨l1', l2', l3', -⟩, p', hp', s', body', e', hs', he'⟩ := h'
  rw [e] at e'
  simp only [List.append_assoc] at e'
  have e2 := List.append_cancel_left e'
  obtain ⟨-, rfl⟩ := List.append_inj e2 (by rw [big32_len hs, big32_len hs'])
  have := elements_same he he'
  simp only [List.cons.injEq, Prod.mk.injEq, true_and, and_true] at this
  obtain ⟨h1, rfl⟩ := this
  have h2 := List.append_cancel_left h1
  subst h2
  have h3 := packed_same hp hp'
  simp only [List.append_assoc] at h3
  obtain ⟨rfl, h4⟩ := List.append_inj h3 (by omega)
  obtain ⟨rfl, rfl⟩ := List.append_inj h4 (by omega)
  exact ⟨rfl, rfl, rfl, rfl⟩

/-! ### The text with the description of the program -/

/-- **C85 (text in a program).** What is found in the data of a program is the first string that ends with NUL in which `pre` occurs and, from there on, `inf`,
beginning with `pre`; if there is none, nothing is found. -/
theorem C85_zstr {data pre inf z : List Nat} (hp : pre ≠ []) (h0 : 0 ∉ pre) : findZstr data pre inf = some z ↔ Found pre inf data z :=
  loop_found_iff hp h0 data.length (Nat.le_refl _) (Nat.lt_succ_self _)

/-- The second string has both, but the last one does not end. -/
example : findZstr [9, 5, 6, 0, 8, 5, 6, 7, 1, 0, 5, 6, 7] [5, 6] [7] = some [5, 6, 7, 1] ∧ findZstr [5, 6, 7] [5, 6] [7] = none ∧
    Found [5, 6] [7] ([9, 5, 6] ++ 0 :: ([8, 5, 6, 7, 1] ++ 0 :: [5, 6, 7])) [5, 6, 7, 1] := by
  refine ⟨by decide, by decide, (C85_zstr (by decide) (by decide)).1 (by decide)⟩

/-! ### A program -/

/-- The bytes of a program with one section (the whole file) and an icon, up to the icon, which would follow at 344. -/
def smallExe : List Nat :=
  [77, 90] ++ List.replicate 58 0 ++ [64, 0, 0, 0] ++ [80, 69, 0, 0] ++ [0, 0, 1, 0] ++ List.replicate 12 0 ++ [136, 0, 0, 0] ++
  [0x0b, 0x02] ++ List.replicate 126 0 ++ [8, 1, 0, 0] ++ List.replicate 4 0 ++ List.replicate 8 0 ++ [0, 0, 2, 0] ++ List.replicate 28 0 ++
  (List.replicate 14 0 ++ [1, 0] ++ [3, 0, 0, 0] ++ [24, 0, 0, 128]) ++ (List.replicate 14 0 ++ [1, 0] ++ [1, 0, 0, 0] ++ [48, 0, 0, 128]) ++
  (List.replicate 14 0 ++ [1, 0] ++ [9, 4, 0, 0] ++ [72, 0, 0, 0]) ++ [88, 1, 0, 0, 40, 8, 1, 0]

theorem smallExe_headers {n table r : Nat} (h : Headers smallExe n table r) : n = 1 ∧ table = 224 ∧ r = 264 := by
  obtain ⟨-, pe, o, m, dirs, h1, -, -, -, -, h2, h3, rfl, h4, h5, h6⟩ := h
  have e1 : pe = 64 := u32_same h1 (u32At_iff.1 (by decide +kernel))
  subst e1
  have e2 : n = 1 := u16_same h2 (u16At_iff.1 (by decide +kernel))
  have e3 : o = 136 := u16_same h3 (u16At_iff.1 (by decide +kernel))
  have e4 : m = 0x20b := u16_same h4 (u16At_iff.1 (by decide +kernel))
  subst e2 e3 e4
  rcases h5 with ⟨h, -⟩ | ⟨-, rfl⟩
  · cases h
  · exact ⟨rfl, rfl, u32_same h6 (u32At_iff.1 (by decide +kernel))⟩

theorem smallExe_at {rva p : Nat} (h : At smallExe 1 224 rva p) : p = rva := by
  obtain ⟨i, size, addr, pos, hi, ⟨-, h1, h2⟩, h3, -, rfl⟩ := h
  have e : i = 0 := by omega
  subst e
  have e1 : addr = 0 := u32_same h1 (u32At_iff.1 (by decide +kernel))
  have e2 : pos = 0 := u32_same h2 (u32At_iff.1 (by decide +kernel))
  omega

theorem smallExe_entry {dir id v : Nat} (hd : dir = 264 ∨ dir = 288 ∨ dir = 312) (h : Entry smallExe dir id v) :
    v = if dir = 264 then 2147483648 + 24 else if dir = 288 then 2147483648 + 48 else 72 := by
  obtain ⟨named, numbered, i, h1, h2, hi, -, h4⟩ := h
  rcases hd with rfl | rfl | rfl <;>
  · have e1 : named = 0 := u16_same h1 (u16At_iff.1 (by decide +kernel))
    have e2 : numbered = 1 := u16_same h2 (u16At_iff.1 (by decide +kernel))
    have e3 : i = 0 := by omega
    subst e1 e3
    exact u32_same h4 (u32At_iff.1 (by decide +kernel))

theorem smallExe_dir {dir : Nat} (h : Dir smallExe 264 dir) : dir = 264 ∨ dir = 288 ∨ dir = 312 := by
  induction h with
  | root => exact .inl rfl
  | @sub dir id a h he ih =>
    have := smallExe_entry ih he
    rcases ih with rfl | rfl | rfl
    · rw [if_pos rfl] at this
      omega
    · rw [if_neg (by decide), if_pos rfl] at this
      omega
    · rw [if_neg (by decide), if_neg (by decide)] at this
      omega

theorem smallExe_proper : Proper smallExe where
  bytes := by decide +kernel
  table := by
    intro n table r h
    obtain ⟨rfl, rfl, rfl⟩ := smallExe_headers h
    decide +kernel
  sections := by
    intro n table r h rva p p' h1 h2
    obtain ⟨rfl, rfl, rfl⟩ := smallExe_headers h
    rw [smallExe_at h1, smallExe_at h2]
  entries := by
    intro n table r rsrc h hr dir hdir id v v' h1 h2
    obtain ⟨rfl, rfl, rfl⟩ := smallExe_headers h
    have := smallExe_at hr
    subst this
    have hd := smallExe_dir hdir
    rw [smallExe_entry hd h1, smallExe_entry hd h2]

/-- It is proper and has an icon, which is found. -/
example : Proper smallExe ∧ IconAt smallExe 344 (40 + 128 * 128 * 4 + 128 * 128 / 8) ∧ findIcon smallExe = some (some 384) := by
  have h : findIcon smallExe = some (some 384) := by decide +kernel
  obtain ⟨o, e, hi⟩ := C85_exe_sound smallExe_proper.bytes h
  have e : o = 344 := by omega
  subst e
  exact ⟨smallExe_proper, hi, h⟩

/-- **C85 (two entries)**: if a directory has two entries with the same number (here two languages 0x409), the first one is taken. -/
example : findEntryLoop [9, 4, 0, 0, 72, 0, 0, 0, 9, 4, 0, 0, 80, 0, 0, 0] 0x409 2 0 = some (some 72) := by decide

end Verif.Icons
