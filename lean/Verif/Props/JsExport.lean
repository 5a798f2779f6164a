import Verif.JsExportLemmas
/-
C40: carts inside a javascript export.
-/
namespace Verif.JsExport

open Verif.P64 (lit chunk)
open Verif.ExportSpec (Op Name Carts Has apply applyAll)
open Verif.Export (writeCart writeAll listCarts readCart find dictOf)

/-! ### What a file with carts looks like -/

/-- The text of the file apart from the contents of the two lists. -/
structure Skeleton where
  namesFirst : Bool
  p : List Nat
  q : List Nat
  r : List Nat

/-- The file with the given contents of the list of names and the list of data. -/
def Skeleton.fill (sk : Skeleton) (names data : List Nat) : List Nat :=
  if sk.namesFirst then sk.p ++ (names ++ (sk.q ++ (data ++ sk.r))) else sk.p ++ (data ++ (sk.q ++ (names ++ sk.r)))

/-- The pieces really are what surrounds the first `var _cartname = [...]` and the first `var _cartdat = [...]`. -/
def Skeleton.Good (sk : Skeleton) : Prop :=
  let v1 := if sk.namesFirst then lit "_cartname" else lit "_cartdat"
  let v2 := if sk.namesFirst then lit "_cartdat" else lit "_cartname"
  First v1 sk.p ∧ First v2 (sk.p ++ sk.q) ∧ sk.q.head? = some 0x5d ∧ EndsHead v2 sk.q ∧ sk.r.head? = some 0x5d

/-- A name that survives in the list of names: no comma and no square bracket. -/
def NameOk (n : Name) : Prop := 0x2c ∉ n ∧ 0x5b ∉ n ∧ 0x5d ∉ n

def RomOk (size : Nat) (rom : List Nat) : Prop := rom.length = size ∧ ∀ b ∈ rom, b < 256

/-- The file holds the carts, in order. -/
def Represents (size : Nat) (sk : Skeleton) (text : List Nat) (l : Carts) : Prop :=
  sk.Good ∧ (l.map (·.1)).Nodup ∧ (∀ c ∈ l, NameOk c.1 ∧ RomOk size c.2) ∧
    ∃ g1 g2, text = sk.fill g1 g2 ∧ (0x5b ∉ g1 ∧ 0x5d ∉ g1) ∧ (0x5b ∉ g2 ∧ 0x5d ∉ g2) ∧
      parseNames g1 = l.map (·.1) ∧ parseData (size * l.length) g2 = some (l.flatMap (·.2))

/-- A change with names that survive and with a cart of the right size. -/
def OpOk (size : Nat) : Op → Prop
  | .insert name rom _ => NameOk name ∧ RomOk size rom
  | .replace _ rom => RomOk size rom
  | .delete _ => True
  | .rename _ target => NameOk target

/-! ### Lemmas: finding -/

theorem suffix_head {v p g q' : List Nat} (hv : Plain v) (hg : 0x5b ∉ g) (hq : q' = [] ∨ q'.head? = some 0x5d)
    (h : EndsHead v (p ++ (g ++ q'))) (hne : g ++ q' ≠ []) : q' ≠ [] ∧ EndsHead v q' := by
  obtain ⟨x, h0, hh, e⟩ := h
  have hb := hh.no_bracket hv.2
  cases q' with
  | nil =>
    exfalso
    simp only [List.append_nil] at e hne
    have h1 : g.getLast? = some 0x5b := by
      have := congrArg List.getLast? e
      rw [List.getLast?_append, List.getLast?_append] at this
      cases hgl : g.getLast? with
      | none => rw [List.getLast?_eq_none_iff] at hgl; exact absurd hgl hne
      | some c => rw [hgl] at this; simpa using this
    exact hg (List.mem_of_getLast? h1)
  | cons c q' =>
    have hc : c = 0x5d := by rcases hq with h | h <;> simp at h; exact h
    subst hc
    refine ⟨by simp, ?_⟩
    rw [← List.append_assoc] at e
    have e' : (p ++ g) ++ (0x5d :: q') = x ++ (h0 ++ [0x5b]) := by rw [e]; simp
    rcases List.append_eq_append_iff.mp e' with ⟨t, e1, e2⟩ | ⟨t, e1, e2⟩
    · exact ⟨t, h0, hh, by rw [e2]; simp⟩
    · exfalso
      have : 0x5d ∈ h0 ++ [0x5b] := by rw [e2]; simp
      simp at this; exact hb.2 this

theorem first_second {v p q g : List Nat} (hv : Plain v) (h : First v (p ++ q)) (hq : q.head? = some 0x5d)
    (he : EndsHead v q) (hg : 0x5b ∉ g) : First v (p ++ (g ++ q)) := by
  obtain ⟨x, h0, hh, e⟩ := he
  refine ⟨⟨p ++ g ++ x, h0, hh, by rw [e]; simp⟩, ?_⟩
  intro a' hpre hne hend
  obtain ⟨z, hz⟩ := hpre
  have hqne : q ≠ [] := by rintro rfl; simp at hq
  have hpne : ∀ t : List Nat, p ++ t = p ++ q → t = q := fun t e => List.append_cancel_left e
  rcases List.append_eq_append_iff.mp hz with ⟨t, e1, e2⟩ | ⟨t, e1, e2⟩
  · refine h.2 a' ⟨t ++ q, by rw [e1]; simp⟩ ?_ hend
    intro e3
    have h1 := congrArg List.length e1
    have h2 := congrArg List.length e3
    have h3 : 0 < q.length := List.length_pos_iff.mpr hqne
    simp only [List.length_append] at h1 h2
    omega
  · rcases (List.append_eq_append_iff.mp e2).symm with ⟨u, e3, e4⟩ | ⟨u, e3, e4⟩
    · by_cases ht : t = []
      · rw [e1, ht, List.append_nil] at hend
        exact h.2 p (List.prefix_append _ _) (fun e => hqne ((hpne [] (by simpa using e)).symm)) hend
      · rw [e1] at hend
        have := suffix_head (g := t) (q' := []) hv (by rw [e3] at hg; exact fun h' => hg (by simp [h'])) (Or.inl rfl)
          (by rw [List.append_nil]; exact hend) (by simpa using ht)
        exact this.1 rfl
    · by_cases ht : g ++ u = []
      · rw [e1, e3, ht, List.append_nil] at hend
        exact h.2 p (List.prefix_append _ _) (fun e => hqne ((hpne [] (by simpa using e)).symm)) hend
      · rw [e1, e3] at hend
        have hu : u = [] ∨ u.head? = some 0x5d := by
          cases u with
          | nil => exact Or.inl rfl
          | cons c u => rw [e4] at hq; right; simpa using hq
        obtain ⟨hu1, x', h', hh', e'⟩ := suffix_head hv hg hu hend ht
        refine h.2 (p ++ u) ⟨z, by rw [e4]; simp⟩ ?_ ⟨p ++ x', h', hh', by rw [e']; simp⟩
        intro e5
        have := hpne u e5
        apply hne
        rw [e1, e3, this]

theorem find_first {sk : Skeleton} (h : sk.Good) {g1 g2 : List Nat} (h1 : 0x5b ∉ g1 ∧ 0x5d ∉ g1) (h2 : 0x5b ∉ g2 ∧ 0x5d ∉ g2) :
    (∃ a b, findVar nameVar (sk.fill g1 g2) = some (a, g1, b) ∧ ∀ g, sk.fill g g2 = a ++ g ++ b) ∧
    (∃ a b, findVar dataVar (sk.fill g1 g2) = some (a, g2, b) ∧ ∀ g, sk.fill g1 g = a ++ g ++ b) := by
  obtain ⟨nf, p, q, r⟩ := sk
  obtain ⟨k1, k2, k3, k4, k5⟩ := h
  have hqr : ∀ x : List Nat, (q ++ x).head? = some 0x5d := by
    intro x
    cases q with
    | nil => simp at k3
    | cons c q => simpa using k3
  cases nf with
  | true =>
    simp only [Skeleton.fill, if_true] at *
    refine ⟨⟨p, q ++ (g2 ++ r), findVar_first plain_name k1 h1.2 (hqr _), fun g => by simp⟩,
      ⟨p ++ (g1 ++ q), r, ?_, fun g => by simp⟩⟩
    have := findVar_first plain_data (first_second plain_data k2 k3 k4 h1.1) h2.2 k5
    simpa using this
  | false =>
    simp only [Skeleton.fill, Bool.false_eq_true, if_false] at *
    refine ⟨⟨p ++ (g2 ++ q), r, ?_, fun g => by simp⟩,
      ⟨p, q ++ (g1 ++ r), findVar_first plain_data k1 h2.2 (hqr _), fun g => by simp⟩⟩
    have := findVar_first plain_name (first_second plain_name k2 k3 k4 h2.1) h1.2 k5
    simpa using this

/-! ### Lemmas: the contents of the lists -/

theorem strip_nil {s : List Nat} (h : pyStrip s = []) : ∀ c ∈ s, pyIsSpace c = true := by
  intro c hc
  obtain ⟨w, e1, hw⟩ := dropWhile_split (p := pyIsSpace) s
  obtain ⟨w', e2, hw'⟩ := pyRstrip_split (s.dropWhile pyIsSpace)
  rw [show pyRstrip (s.dropWhile pyIsSpace) = [] from h, List.nil_append] at e2
  rw [e1, e2] at hc
  rcases List.mem_append.mp hc with hc | hc
  · exact hw c hc
  · exact hw' c hc

def quote (n : Name) : List Nat := 0x60 :: n ++ [0x60]

theorem strip_quote (n : Name) : pyStrip (quote n) = quote n :=
  pyStrip_tight (by intro a ha; simp [quote] at ha; subst ha; decide) (by
    intro a ha
    rw [quote, List.getLast?_append] at ha
    simp at ha; subst ha; decide)

theorem namesText_join (n : Name) (ns : List Name) :
    namesText (n :: ns) = joinC 0x2c (quote n :: ns.map fun n => 0x20 :: quote n) := by
  rw [joinC_cons, namesText, List.flatMap_map]; rfl

theorem parseNames_text {ns : List Name} (h : ∀ n ∈ ns, 0x2c ∉ n) : parseNames (namesText ns) = ns := by
  cases ns with
  | nil => rfl
  | cons n ns =>
    have hq : ∀ n : Name, 0x2c ∉ n → 0x2c ∉ quote n := by intro n hn; simp [quote, hn]
    rw [namesText_join, parseNames, if_neg]
    · rw [splitC_join (by simp)]
      · simp only [List.map_cons, List.map_map]
        have h2 : ∀ n : Name, ((pyStrip (quote n)).drop 1).dropLast = n := by
          intro n; rw [strip_quote]; simp [quote]
        rw [h2]
        congr 1
        conv => rhs; rw [← List.map_id ns]
        refine List.map_congr_left fun m _ => ?_
        have : pyStrip (0x20 :: quote m) = pyStrip (quote m) := rfl
        show ((pyStrip (0x20 :: quote m)).drop 1).dropLast = m
        rw [this, h2]
      · intro l hl
        rw [List.mem_cons, List.mem_map] at hl
        rcases hl with rfl | ⟨m, hm, rfl⟩
        · exact hq n (h n (by simp))
        · have := hq m (h m (by simp [hm])); simp [this]
    · intro he
      have := strip_nil he 0x60 (by rw [joinC_cons]; simp [quote])
      exact absurd this (by decide)

theorem namesText_brackets {ns : List Name} (h : ∀ n ∈ ns, 0x5b ∉ n ∧ 0x5d ∉ n) :
    0x5b ∉ namesText ns ∧ 0x5d ∉ namesText ns := by
  cases ns with
  | nil => decide
  | cons n ns =>
    unfold namesText
    have h0 := h n (by simp)
    simp only [List.mem_append, List.mem_cons, List.mem_flatMap, List.not_mem_nil, or_false, not_or, not_exists, not_and]
    refine ⟨⟨⟨⟨by omega, h0.1⟩, by omega⟩, fun m hm => ⟨⟨by omega, by omega⟩, ⟨by omega, (h m (by simp [hm])).1⟩, by omega⟩⟩,
      ⟨⟨⟨by omega, h0.2⟩, by omega⟩, fun m hm => ⟨⟨by omega, by omega⟩, ⟨by omega, (h m (by simp [hm])).2⟩, by omega⟩⟩⟩

/-- The pieces between commas of one line of data. -/
def linePieces : List Nat → List (List Nat)
  | [] => []
  | b :: bs => (10 :: natDigits b) :: bs.map natDigits

theorem line_join {c : List Nat} (h : c ≠ []) : 10 :: joinC 0x2c (c.map natDigits) = joinC 0x2c (linePieces c) := by
  cases c with
  | nil => exact absurd rfl h
  | cons b bs => rw [List.map_cons, joinC_cons, linePieces, joinC_cons]; simp

theorem joinC_append {a b : List (List Nat)} (ha : a ≠ []) (hb : b ≠ []) :
    joinC 0x2c (a ++ b) = joinC 0x2c a ++ 0x2c :: joinC 0x2c b := by
  cases a with
  | nil => exact absurd rfl ha
  | cons x a =>
    cases b with
    | nil => exact absurd rfl hb
    | cons y b => rw [List.cons_append, joinC_cons, joinC_cons, joinC_cons]; simp

theorem lines_join {c : List Nat} {cs : List (List Nat)} (h : ∀ x ∈ c :: cs, x ≠ []) :
    10 :: (joinC 0x2c (c.map natDigits) ++ cs.flatMap fun c => [0x2c, 10] ++ joinC 0x2c (c.map natDigits)) =
      joinC 0x2c ((c :: cs).flatMap linePieces) := by
  have hp : ∀ x : List Nat, x ≠ [] → linePieces x ≠ [] := by
    intro x hx; cases x with
    | nil => exact absurd rfl hx
    | cons b bs => simp [linePieces]
  induction cs generalizing c with
  | nil => simp only [List.flatMap_nil, List.append_nil, List.flatMap_cons]; exact line_join (h c (by simp))
  | cons d cs ih =>
    rw [List.flatMap_cons (xs := d :: cs), joinC_append (b := (d :: cs).flatMap linePieces) (hp c (h c (by simp))) (by
      rw [List.flatMap_cons]; exact fun e => hp d (h d (by simp)) (List.append_eq_nil_iff.mp e).1),
      ← line_join (h c (by simp)), ← ih fun x hx => h x (List.mem_cons_of_mem _ hx)]
    simp

theorem chunk_ne_nil {size : Nat} (h : 0 < size) (s : List Nat) : ∀ c ∈ chunk size s, c ≠ [] := by
  induction hn : s.length using Nat.strongRecOn generalizing s with
  | _ n ih =>
    cases s with
    | nil => rw [P64.chunk_nil size h]; simp
    | cons b s =>
      rw [P64.chunk_cons h (by simp)]
      intro c hc
      rw [List.mem_cons] at hc
      rcases hc with rfl | hc
      · intro e
        have := congrArg List.length e
        simp at this; omega
      · exact ih _ (by rw [← hn]; simp; omega) _ rfl c hc

theorem strip_digits (n : Nat) : pyStrip (natDigits n) = natDigits n ∧ pyStrip (10 :: natDigits n) = natDigits n := by
  have h : pyStrip (natDigits n) = natDigits n :=
    pyStrip_tight (fun a ha => digit_not_space (natDigits_digit n a (List.mem_of_head? ha)))
      (fun a ha => digit_not_space (natDigits_digit n a (List.mem_of_getLast? ha)))
  exact ⟨h, h⟩

theorem parseData_text {data : List Nat} (h : ∀ b ∈ data, b < 256) : parseData data.length (dataText data) = some data := by
  cases data with
  | nil =>
    rw [dataText, P64.chunk_nil _ (by omega), parseData, if_pos (by decide)]; rfl
  | cons b0 bs =>
    have hf := P64.chunk_flatten (size := 0x100) (by omega) (b0 :: bs)
    have hne := chunk_ne_nil (size := 0x100) (by omega) (b0 :: bs)
    have hl : b0 :: bs ≠ [] := by simp
    generalize b0 :: bs = data at *
    cases hc : chunk 0x100 data with
    | nil => rw [hc] at hf; exact absurd hf.symm hl
    | cons c cs =>
      rw [hc] at hf hne
      have hpieces : ∀ ls : List (List Nat), (∀ x ∈ ls, x ≠ []) →
          (ls.flatMap linePieces).map (fun x => (parseNat (pyStrip x)).getD 0) = ls.flatten ∧
          (∀ x ∈ ls.flatMap linePieces, ∃ b ∈ ls.flatten, x = natDigits b ∨ x = 10 :: natDigits b) := by
        intro ls hls
        induction ls with
        | nil => simp
        | cons l ls ih =>
          obtain ⟨i1, i2⟩ := ih fun x hx => hls x (by simp [hx])
          rw [List.flatMap_cons, List.map_append, i1, List.flatten_cons]
          constructor
          · congr 1
            cases l with
            | nil => rfl
            | cons b l =>
              rw [linePieces, List.map_cons, (strip_digits b).2, parseNat_natDigits, List.map_map]
              congr 1
              conv => rhs; rw [← List.map_id l]
              refine List.map_congr_left fun x _ => ?_
              show (parseNat (pyStrip (natDigits x))).getD 0 = x
              rw [(strip_digits x).1, parseNat_natDigits]; rfl
          · intro x hx
            rcases List.mem_append.mp hx with hx | hx
            · cases l with
              | nil => simp [linePieces] at hx
              | cons b l =>
                rw [linePieces, List.mem_cons, List.mem_map] at hx
                rcases hx with rfl | ⟨d, hd, rfl⟩
                · exact ⟨b, by simp, Or.inr rfl⟩
                · exact ⟨d, by simp [hd], Or.inl rfl⟩
            · obtain ⟨b, hb, e⟩ := i2 x hx
              exact ⟨b, by simp only [List.mem_append]; exact Or.inr hb, e⟩
      obtain ⟨p1, p2⟩ := hpieces (c :: cs) hne
      rw [hf] at p1 p2
      have ht : dataText data = joinC 0x2c ((c :: cs).flatMap linePieces) := by
        rw [← lines_join hne, dataText, hc]
      rw [ht, parseData, if_neg]
      · rw [splitC_join]
        · rw [mapM_some (g := fun x => (parseNat (pyStrip x)).getD 0), p1, Option.bind_some, if_pos (Nat.le_refl _)]
          · simp
          · intro x hx
            obtain ⟨b, hb, e⟩ := p2 x hx
            have : parseNat (pyStrip x) = some b := by
              rcases e with rfl | rfl
              · rw [(strip_digits b).1, parseNat_natDigits]
              · rw [(strip_digits b).2, parseNat_natDigits]
            rw [this]
            simp [h b hb]
        · intro e
          rw [e] at p1
          exact hl p1.symm
        · intro x hx h44
          obtain ⟨b, _, rfl | rfl⟩ := p2 x hx
          · have := natDigits_digit b _ h44; omega
          · rw [List.mem_cons] at h44
            rcases h44 with h44 | h44
            · omega
            · have := natDigits_digit b _ h44; omega
      · intro he
        have hall := strip_nil he
        cases c with
        | nil => exact hne [] (by simp) rfl
        | cons b c =>
          cases hd : natDigits b with
          | nil => exact natDigits_ne_nil b hd
          | cons d ds =>
            have h1 := hall d (by
              rw [List.flatMap_cons, linePieces, List.cons_append, joinC_cons, hd]; simp)
            rw [digit_not_space (natDigits_digit b d (by rw [hd]; simp))] at h1
            simp at h1

theorem dataText_brackets (data : List Nat) : 0x5b ∉ dataText data ∧ 0x5d ∉ dataText data := by
  have hd : ∀ c : List Nat, ∀ x ∈ joinC 0x2c (c.map natDigits), x = 0x2c ∨ 48 ≤ x ∧ x ≤ 57 := by
    intro c x hx
    cases c with
    | nil => simp [joinC] at hx
    | cons b bs =>
      rw [List.map_cons, joinC_cons, List.flatMap_map] at hx
      simp only [List.mem_append, List.mem_flatMap, List.mem_cons] at hx
      rcases hx with hx | ⟨b, _, rfl | hx⟩
      · exact Or.inr (natDigits_digit _ _ hx)
      · exact Or.inl rfl
      · exact Or.inr (natDigits_digit _ _ hx)
  have key : ∀ x ∈ dataText data, x = 10 ∨ x = 0x2c ∨ 48 ≤ x ∧ x ≤ 57 := by
    intro x hx
    unfold dataText at hx
    rw [List.mem_cons] at hx
    rcases hx with hx | hx
    · exact Or.inl hx
    · split at hx
      · simp at hx
      · simp only [List.mem_append, List.mem_flatMap, List.mem_cons, List.not_mem_nil, or_false] at hx
        rcases hx with hx | ⟨c, _, (hx | hx) | hx⟩
        · exact Or.inr (hd _ x hx)
        · omega
        · omega
        · exact Or.inr (hd _ x hx)
  exact ⟨fun h => by have := key _ h; omega, fun h => by have := key _ h; omega⟩

/-! ### Lemmas: the operations -/

theorem carts_eq {size : Nat} {sk : Skeleton} {t : List Nat} {l : Carts} (h : Represents size sk t l) :
    carts size t = some (⟨t, l.map (·.1), l.flatMap (·.2)⟩, (l.map (·.1)).zipIdx) := by
  obtain ⟨hg, hn, -, g1, g2, rfl, b1, b2, h1, h2⟩ := h
  obtain ⟨⟨a, b, e1, -⟩, ⟨a', b', e2, -⟩⟩ := find_first hg b1 b2
  unfold carts
  rw [e1, Option.bind_some]
  simp only
  rw [e2, Option.bind_some, h1]
  simp only [List.length_map]
  rw [h2, Export.dictOf_nodup (by simpa using hn)]
  rfl

theorem flatMap_length {size : Nat} {l : Carts} (h : ∀ c ∈ l, c.2.length = size) : (l.flatMap (·.2)).length = size * l.length := by
  induction l with
  | nil => simp
  | cons c l ih =>
    rw [List.flatMap_cons, List.length_append, ih fun x hx => h x (by simp [hx]), h c (by simp), List.length_cons,
      Nat.mul_add, Nat.mul_one, Nat.add_comm]

theorem finish_eq {size : Nat} {sk : Skeleton} {t : List Nat} {l l' : Carts} (h : Represents size sk t l)
    (hn : (l'.map (·.1)).Nodup) (hok : ∀ c ∈ l', NameOk c.1 ∧ RomOk size c.2) {ns : List Name} {d : List Nat}
    (e1 : ns = l'.map (·.1)) (e2 : d = l'.flatMap (·.2)) :
    ∃ t', finishWrite ⟨t, ns, d⟩ = some t' ∧ Represents size sk t' l' := by
  obtain ⟨hg, -, -, g1, g2, rfl, b1, b2, -, -⟩ := h
  have hns : ∀ n ∈ ns, NameOk n := by
    rw [e1]; intro n hn'
    obtain ⟨c, hc, rfl⟩ := List.mem_map.mp hn'
    exact (hok c hc).1
  have nb := namesText_brackets (ns := ns) fun n hn' => (hns n hn').2
  have db := dataText_brackets d
  obtain ⟨⟨a, b, f1, f2⟩, -⟩ := find_first hg b1 b2
  obtain ⟨-, ⟨a', b', f3, f4⟩⟩ := find_first hg nb b2
  refine ⟨sk.fill (namesText ns) (dataText d), ?_, hg, hn, hok, _, _, rfl, nb, db, ?_, ?_⟩
  · unfold finishWrite
    rw [f1, Option.bind_some]
    simp only
    rw [← f2, f3, f4]
    rfl
  · rw [parseNames_text fun n hn' => (hns n hn').1, e1]
  · have hl : d.length = size * l'.length := by rw [e2, flatMap_length fun c hc => (hok c hc).2.1]
    rw [← hl, parseData_text, e2]
    rw [e2]; intro b hb
    obtain ⟨c, hc, hb⟩ := List.mem_flatMap.mp hb
    exact (hok c hc).2.2 b hb

theorem has_split {l : Carts} {n : Name} (h : Has l n) : ∃ a x b, l = a ++ (n, x) :: b ∧ ¬ Has a n := by
  induction l with
  | nil => obtain ⟨r, hr⟩ := h; simp at hr
  | cons c l ih =>
    by_cases hc : c.1 = n
    · exact ⟨[], c.2, l, by rw [← hc]; rfl, by rintro ⟨r, hr⟩; simp at hr⟩
    · obtain ⟨a, x, b, e, hna⟩ := ih (by
        obtain ⟨r, hr⟩ := h
        rw [List.mem_cons] at hr
        rcases hr with hr | hr
        · exact absurd (by rw [← hr]) hc
        · exact ⟨r, hr⟩)
      refine ⟨c :: a, x, b, by rw [e]; rfl, ?_⟩
      rintro ⟨r, hr⟩
      rw [List.mem_cons] at hr
      rcases hr with hr | hr
      · exact hc (by rw [← hr])
      · exact hna ⟨r, hr⟩

theorem not_has {l : Carts} {n : Name} : ¬ Has l n ↔ ∀ c ∈ l, c.1 ≠ n := by
  constructor
  · intro h c hc e; exact h ⟨c.2, by rw [← e]; exact hc⟩
  · rintro h ⟨r, hr⟩; exact h _ hr rfl

theorem find_zip_none {l : Carts} {n : Name} (h : ¬ Has l n) (k : Nat) : find ((l.map (·.1)).zipIdx k) n = none := by
  unfold find
  rw [Option.map_eq_none_iff, List.find?_eq_none]
  intro x hx
  have : x.1 ∈ ((l.map (·.1)).zipIdx k).map (·.1) := List.mem_map.mpr ⟨x, hx, rfl⟩
  rw [List.zipIdx_map_fst] at this
  obtain ⟨c, hc, e⟩ := List.mem_map.mp this
  rw [← e]
  simpa using not_has.mp h c hc

theorem find_zip {a b : Carts} {n : Name} {x : List Nat} (h : ¬ Has a n) :
    find (((a ++ (n, x) :: b).map (·.1)).zipIdx) n = some a.length := by
  have h0 := find_zip_none h 0
  unfold find at h0 ⊢
  rw [Option.map_eq_none_iff] at h0
  rw [List.map_append, List.zipIdx_append, List.find?_append, h0]
  simp

theorem chosen_eq {l : Carts} {name : Option Name} :
    Export.chosen ((l.map (·.1)).zipIdx) name = ExportSpec.chosen l name := by
  cases name with
  | some n => rfl
  | none => cases l <;> rfl

theorem split_data {size : Nat} {a b : Carts} {n : Name} {x : List Nat} (h : ∀ c ∈ a ++ (n, x) :: b, c.2.length = size) :
    ((a ++ (n, x) :: b).flatMap (·.2)).take (size * a.length) = a.flatMap (·.2) ∧
    ((a ++ (n, x) :: b).flatMap (·.2)).drop (size * a.length) = x ++ b.flatMap (·.2) ∧
    ((a ++ (n, x) :: b).flatMap (·.2)).drop (size * (a.length + 1)) = b.flatMap (·.2) := by
  have ha := flatMap_length (size := size) (l := a) fun c hc => h c (by simp [hc])
  have hx : x.length = size := h (n, x) (by simp)
  have e : (a ++ (n, x) :: b).flatMap (·.2) = a.flatMap (·.2) ++ (x ++ b.flatMap (·.2)) := by simp
  rw [e, ← ha]
  refine ⟨List.take_left, List.drop_left, ?_⟩
  rw [show size * (a.length + 1) = (a.flatMap (·.2)).length + x.length by rw [ha, hx, Nat.mul_add, Nat.mul_one],
    ← List.drop_drop, List.drop_left, List.drop_left]

/-- The same without the bookkeeping: what becomes of the carts. -/
theorem map_split {a b : Carts} {n : Name} {x : List Nat} (ha : ¬ Has a n) (hb : ¬ Has b n) (f : Name × List Nat → Name × List Nat) :
    (a ++ (n, x) :: b).map (fun c => if c.1 = n then f c else c) = a ++ f (n, x) :: b := by
  have key : ∀ l : Carts, ¬ Has l n → l.map (fun c => if c.1 = n then f c else c) = l := by
    intro l hl
    conv => rhs; rw [← List.map_id l]
    exact List.map_congr_left fun c hc => by rw [if_neg (not_has.mp hl c hc)]; rfl
  rw [List.map_append, List.map_cons, key a ha, key b hb]; simp

theorem nodup_split {a b : Carts} {n : Name} {x : List Nat} (h : ((a ++ (n, x) :: b).map (·.1)).Nodup) :
    ¬ Has b n ∧ ((a ++ b).map (·.1)).Nodup := by
  rw [List.map_append, List.map_cons, List.nodup_append, List.nodup_cons] at h
  obtain ⟨h1, ⟨h2, h3⟩, h4⟩ := h
  refine ⟨not_has.mpr fun c hc e => h2 (List.mem_map.mpr ⟨c, hc, e⟩), ?_⟩
  rw [List.map_append, List.nodup_append]
  exact ⟨h1, h3, fun y hy z hz => h4 y hy z (by simp [hz])⟩

theorem nodup_insert {a b : Carts} {n : Name} {x : List Nat} (h : ((a ++ b).map (·.1)).Nodup) (hn : ¬ Has (a ++ b) n) :
    ((a ++ (n, x) :: b).map (·.1)).Nodup := by
  have h' := not_has.mp hn
  rw [List.map_append, List.nodup_append] at h
  obtain ⟨h1, h3, h4⟩ := h
  rw [List.map_append, List.map_cons, List.nodup_append, List.nodup_cons]
  refine ⟨h1, ⟨?_, h3⟩, ?_⟩
  · intro hm
    obtain ⟨c, hc, e⟩ := List.mem_map.mp hm
    exact h' c (by simp [hc]) e
  · intro y hy z hz
    rw [List.mem_cons] at hz
    rcases hz with rfl | hz
    · obtain ⟨c, hc, e⟩ := List.mem_map.mp hy
      rw [← e]; exact h' c (by simp [hc])
    · exact h4 y hy z hz

theorem ok_split {size : Nat} {a b : Carts} {n : Name} {x : List Nat} (h : ∀ c ∈ a ++ b, NameOk c.1 ∧ RomOk size c.2)
    (hn : NameOk n) (hx : RomOk size x) : ∀ c ∈ a ++ (n, x) :: b, NameOk c.1 ∧ RomOk size c.2 := by
  intro c hc
  rw [List.mem_append, List.mem_cons] at hc
  rcases hc with hc | rfl | hc
  · exact h c (by simp [hc])
  · exact ⟨hn, hx⟩
  · exact h c (by simp [hc])

/-! ### The theorems -/

/-- **C40.** On a file that holds given carts, every change is accepted exactly if it makes sense for the list of the carts (an
existing name is required, a new name must not exist), and then the file holds the changed list: each name with its own
data, in order, and the rest of the file (the skeleton) as it was. -/
theorem C40_change {size : Nat} {sk : Skeleton} {t : List Nat} {l : Carts} (h : Represents size sk t l) {op : Op}
    (ho : OpOk size op) :
    (∀ l', apply l op = some l' → ∃ t', writeCart (impl size) t op = some t' ∧ Represents size sk t' l') ∧
      (apply l op = none → writeCart (impl size) t op = none) := by
  have hc := carts_eq h
  have hn := h.2.1
  have hok := h.2.2.1
  have hlen : ∀ c ∈ l, c.2.length = size := fun c hc => (hok c hc).2.1
  unfold writeCart
  rw [show (impl size).carts t = _ from hc, Option.bind_some]
  have one : ∀ (name : Option Name) (k : Name → Option Carts) (g : Nat → Option (List Nat)),
      (∀ n a x b, l = a ++ (n, x) :: b → ¬ Has a n → ¬ Has b n →
        (∀ l', k n = some l' → ∃ t', g a.length = some t' ∧ Represents size sk t' l') ∧ (k n = none → g a.length = none)) →
      (∀ l', ((ExportSpec.chosen l name).bind fun n => if Has l n then k n else none) = some l' →
        ∃ t', ((Export.chosen ((l.map (·.1)).zipIdx) name).bind fun n => (find ((l.map (·.1)).zipIdx) n).bind g) = some t' ∧
          Represents size sk t' l') ∧
      (((ExportSpec.chosen l name).bind fun n => if Has l n then k n else none) = none →
        ((Export.chosen ((l.map (·.1)).zipIdx) name).bind fun n => (find ((l.map (·.1)).zipIdx) n).bind g) = none) := by
    intro name k g hk
    rw [chosen_eq]
    cases ExportSpec.chosen l name with
    | none => simp
    | some n =>
      simp only [Option.bind_some]
      by_cases hh : Has l n
      · obtain ⟨a, x, b, e, ha⟩ := has_split hh
        have hb := (nodup_split (by rw [← e]; exact hn)).1
        rw [if_pos hh]
        have : find ((l.map (·.1)).zipIdx) n = some a.length := by rw [e]; exact find_zip ha
        rw [this, Option.bind_some]
        exact hk n a x b e ha hb
      · rw [if_neg hh, find_zip_none hh]; simp
  cases op with
  | insert name rom target =>
    obtain ⟨hname, hrom⟩ := ho
    simp only
    by_cases hh : Has l name
    · obtain ⟨a, x, b, e, ha⟩ := has_split hh
      have : find ((l.map (·.1)).zipIdx) name = some a.length := by rw [e]; exact find_zip ha
      rw [this]
      cases target <;> simp [apply, hh]
    · rw [find_zip_none hh]
      simp only [Option.isSome_none, Bool.false_eq_true, if_false]
      cases target with
      | none =>
        simp only [apply, hh, if_false, Option.some.injEq]
        refine ⟨?_, by simp⟩
        rintro l' rfl
        refine finish_eq h (nodup_insert (b := []) (by simpa using hn) (by simpa using hh))
          (ok_split (b := []) (by simpa using hok) hname hrom) ?_ ?_
        · simp only [Option.getD_none, List.map_append, List.map_cons, List.map_nil]
          rw [List.take_length, List.drop_length]
        · simp only [Option.getD_none, List.length_map]
          rw [← flatMap_length hlen, List.take_length, List.drop_length]; simp
      | some tg =>
        simp only [apply, hh, false_or]
        by_cases ht : Has l tg
        · obtain ⟨a, x, b, e, ha⟩ := has_split ht
          have hf : find ((l.map (·.1)).zipIdx) tg = some a.length := by rw [e]; exact find_zip ha
          rw [hf, if_neg (by simpa using ht)]
          simp only [Option.bind_some, Option.some.injEq]
          refine ⟨?_, by simp⟩
          have htw : l.takeWhile (fun c => c.1 != tg) = a ∧ l.dropWhile (fun c => c.1 != tg) = (tg, x) :: b := by
            rw [e]
            have ha' := not_has.mp ha
            clear e hf ha
            induction a with
            | nil => simp
            | cons c a ih =>
              have hc' := ha' c (by simp)
              have := ih fun y hy => ha' y (by simp [hy])
              simp [hc', this]
          rw [htw.1, htw.2]
          rintro l' rfl
          have sd := split_data (size := size) (a := a) (b := b) (n := tg) (x := x) (by rw [← e]; exact hlen)
          refine finish_eq h (nodup_insert (by rw [← e]; exact hn) (by rw [← e]; exact hh))
            (ok_split (by rw [← e]; exact hok) hname hrom) ?_ ?_
          · rw [e]
            simp only [Option.getD_some, List.map_append, List.map_cons]
            rw [List.take_left' (by simp), List.drop_left' (by simp)]
          · simp only [Option.getD_some]
            rw [e, sd.1, sd.2.1]
            simp
        · rw [if_pos ht, find_zip_none ht]; simp
  | replace name rom =>
    refine one name (fun n => some (l.map fun c => if c.1 = n then (n, rom) else c)) (fun i => replace size _ i rom) ?_
    intro n a x b e ha hb
    refine ⟨?_, by simp⟩
    intro l' hl'
    simp only [Option.some.injEq] at hl'
    have sd := split_data (size := size) (a := a) (b := b) (n := n) (x := x) (by rw [← e]; exact hlen)
    have el : l' = a ++ (n, rom) :: b := by rw [← hl', e]; exact map_split ha hb fun _ => (n, rom)
    have hnl := hok (n, x) (by rw [e]; simp)
    refine finish_eq h (l' := l') ?_ ?_ ?_ ?_
    · rw [el]; rw [e] at hn; simpa using hn
    · rw [el]; exact ok_split (fun c hc => hok c (by rw [e]; simp at hc ⊢; rcases hc with hc | hc <;> simp [hc])) hnl.1 ho
    · rw [el, e]; simp
    · show List.take (size * a.length) (l.flatMap (·.2)) ++ rom ++ List.drop (size * (a.length + 1)) (l.flatMap (·.2)) = _
      rw [el, e, sd.1, sd.2.2]; simp
  | delete name =>
    refine one name (fun n => some (l.filter fun c => c.1 != n)) (fun i => delete size _ i) ?_
    intro n a x b e ha hb
    refine ⟨?_, by simp⟩
    intro l' hl'
    simp only [Option.some.injEq] at hl'
    have sd := split_data (size := size) (a := a) (b := b) (n := n) (x := x) (by rw [← e]; exact hlen)
    have el : l' = a ++ b := by
      rw [← hl', e, List.filter_append, List.filter_cons, if_neg (by simp),
        List.filter_eq_self.mpr (fun c hc => by simpa using not_has.mp ha c hc),
        List.filter_eq_self.mpr (fun c hc => by simpa using not_has.mp hb c hc)]
    refine finish_eq h (l' := l') ?_ ?_ ?_ ?_
    · rw [el]; rw [e] at hn; exact (nodup_split hn).2
    · rw [el]; intro c hc; exact hok c (by rw [e]; simp at hc ⊢; rcases hc with hc | hc <;> simp [hc])
    · rw [el, e]
      simp only [List.map_append, List.map_cons]
      rw [List.take_left' (by simp)]
      congr 1
      rw [← List.drop_drop, List.drop_left' (by simp)]; rfl
    · show List.take (size * a.length) (l.flatMap (·.2)) ++ List.drop (size * (a.length + 1)) (l.flatMap (·.2)) = _
      rw [el, e, sd.1, sd.2.2]; simp
  | rename name target =>
    have happ : apply l (.rename name target) = (ExportSpec.chosen l name).bind fun n =>
        if Has l n then (if Has l target then none else some (l.map fun c => if c.1 = n then (target, c.2) else c)) else none := by
      show ((ExportSpec.chosen l name).bind fun n =>
        if Has l n ∧ ¬ Has l target then some (l.map fun c => if c.1 = n then (target, c.2) else c) else none) = _
      congr 1; funext n
      by_cases h1 : Has l n <;> by_cases h2 : Has l target <;> simp [h1, h2]
    rw [happ]
    refine one name (fun n => if Has l target then none else some (l.map fun c => if c.1 = n then (target, c.2) else c))
      (fun i => if (find ((l.map (·.1)).zipIdx) target).isSome then none else rename _ i target) ?_
    intro n a x b e ha hb
    by_cases hh : Has l target
    · obtain ⟨a', x', b', e', ha'⟩ := has_split hh
      have : find ((l.map (·.1)).zipIdx) target = some a'.length := by rw [e']; exact find_zip ha'
      simp [hh, this]
    · simp only [hh, if_false, find_zip_none hh, Option.isSome_none, Bool.false_eq_true, reduceCtorEq, false_implies, and_true,
        Option.some.injEq]
      intro l' hl'
      have el : l' = a ++ (target, x) :: b := by rw [← hl', e]; exact map_split ha hb fun c => (target, c.2)
      have hnl := hok (n, x) (by rw [e]; simp)
      refine finish_eq h (l' := l') ?_ ?_ ?_ ?_
      · rw [el]
        rw [e] at hn
        refine nodup_insert (nodup_split hn).2 ?_
        rw [not_has] at hh ⊢
        intro c hc; exact hh c (by rw [e]; simp at hc ⊢; rcases hc with hc | hc <;> simp [hc])
      · rw [el]; exact ok_split (fun c hc => hok c (by rw [e]; simp at hc ⊢; rcases hc with hc | hc <;> simp [hc])) ho hnl.2
      · rw [el, e]
        simp only [List.map_append, List.map_cons]
        rw [List.set_append_right _ _ (by simp)]
        simp
      · rw [el, e]; simp

/-- **C40 (reading).** The carts are listed by their names in order, reading a cart by name gives its data, reading without a name gives
the first cart, and other names are not found. -/
theorem C40_read {size : Nat} {sk : Skeleton} {t : List Nat} {l : Carts} (h : Represents size sk t l) :
    listCarts (impl size) t = some (l.map (·.1)) ∧
      (∀ n rom, (n, rom) ∈ l → readCart (impl size) t (some n) = some rom) ∧
      (∀ n, ¬ Has l n → readCart (impl size) t (some n) = none) ∧
      readCart (impl size) t none = l.head?.map (·.2) := by
  have hc := carts_eq h
  have hn := h.2.1
  have hlen : ∀ c ∈ l, c.2.length = size := fun c hc => (h.2.2.1 c hc).2.1
  have some_read : ∀ n rom, (n, rom) ∈ l → readCart (impl size) t (some n) = some rom := by
    intro n rom hm
    obtain ⟨a, x, b, e, ha⟩ := has_split ⟨rom, hm⟩
    have hb := (nodup_split (by rw [← e]; exact hn)).1
    have hx : x = rom := by
      rw [e, List.mem_append, List.mem_cons] at hm
      rcases hm with hm | hm | hm
      · exact absurd rfl (not_has.mp ha _ hm)
      · simpa using hm.symm
      · exact absurd rfl (not_has.mp hb _ hm)
    subst hx
    unfold readCart
    rw [show (impl size).carts t = _ from hc, Option.bind_some]
    have : find ((l.map (·.1)).zipIdx) n = some a.length := by rw [e]; exact find_zip ha
    simp only [Export.chosen, Option.bind_some, this]
    have sd := split_data (size := size) (a := a) (b := b) (n := n) (x := x) (by rw [← e]; exact hlen)
    show some ((List.drop (size * a.length) (l.flatMap (·.2))).take size) = some x
    rw [e, sd.2.1, List.take_left' (hlen (n, x) (by rw [e]; simp))]
  refine ⟨?_, some_read, ?_, ?_⟩
  · unfold listCarts
    rw [show (impl size).carts t = _ from hc, Option.map_some, List.zipIdx_map_fst]
  · intro n hh
    unfold readCart
    rw [show (impl size).carts t = _ from hc, Option.bind_some]
    simp only [Export.chosen, Option.bind_some, find_zip_none hh, Option.bind_none]
  · cases hl : l with
    | nil =>
      unfold readCart
      rw [show (impl size).carts t = _ from hc, Option.bind_some, hl]; rfl
    | cons c l' =>
      have := some_read c.1 c.2 (by rw [hl]; simp)
      unfold readCart at this ⊢
      rw [show (impl size).carts t = _ from hc, Option.bind_some] at this ⊢
      rw [hl] at this ⊢
      exact this

/-- **C40 (histories).** Any sequence of changes that makes sense for the list of carts succeeds, and the file then holds what
the list holds. -/
theorem C40_history {size : Nat} {sk : Skeleton} {t : List Nat} {l l' : Carts} (h : Represents size sk t l) {ops : List Op}
    (ho : ∀ op ∈ ops, OpOk size op) (hl : applyAll l ops = some l') :
    ∃ t', writeAll (impl size) t ops = some t' ∧ Represents size sk t' l' := by
  induction ops generalizing t l with
  | nil => rw [applyAll, Option.some.injEq] at hl; exact ⟨t, rfl, hl ▸ h⟩
  | cons op ops ih =>
    rw [applyAll, Option.bind_eq_some_iff] at hl
    obtain ⟨l1, h1, h2⟩ := hl
    obtain ⟨t1, e1, r1⟩ := (C40_change h (ho op (by simp))).1 l1 h1
    obtain ⟨t', e2, r2⟩ := ih r1 (fun o ho' => ho o (by simp [ho'])) h2
    exact ⟨t', by rw [writeAll, e1]; exact e2, r2⟩

theorem endsHead_iff {v a : List Nat} (hv : Plain v) : EndsHead v a ↔ ∃ x s, a = x ++ s ∧ matchHead v s = some [] := by
  constructor
  · rintro ⟨x, h, hh, e⟩
    exact ⟨x, h ++ [0x5b], by rw [e]; simp, (matchHead_iff hv.1).mpr ⟨h, hh, rfl⟩⟩
  · rintro ⟨x, s, e, hm⟩
    obtain ⟨h, hh, e'⟩ := (matchHead_iff hv.1).mp hm
    exact ⟨x, h, hh, by rw [e, e']; simp⟩

/-- `EndsHead` by computation. -/
def endsHeadB (v a : List Nat) : Bool := (List.range (a.length + 1)).any fun i => matchHead v (a.drop i) == some []

theorem endsHeadB_iff {v a : List Nat} (hv : Plain v) : endsHeadB v a = true ↔ EndsHead v a := by
  rw [endsHead_iff hv, endsHeadB, List.any_eq_true]
  constructor
  · rintro ⟨i, -, h⟩
    exact ⟨a.take i, a.drop i, (List.take_append_drop i a).symm, by simpa using h⟩
  · rintro ⟨x, s, rfl, h⟩
    exact ⟨x.length, by simp; omega, by simp [h]⟩

theorem firstB {v a : List Nat} (hv : Plain v)
    (h : endsHeadB v a = true ∧ ∀ i < a.length, endsHeadB v (a.take i) = false) : First v a := by
  refine ⟨(endsHeadB_iff hv).mp h.1, ?_⟩
  intro a' hp hne he
  have e := List.prefix_iff_eq_take.mp hp
  have hlt : a'.length < a.length := by
    have := hp.length_le
    rcases Nat.lt_or_ge a'.length a.length with h' | h'
    · exact h'
    · exact absurd (hp.eq_of_length (by omega)) hne
  have := h.2 _ hlt
  rw [← e, (endsHeadB_iff hv).mpr he] at this
  simp at this

/-- The skeleton of a new file (`JsExport.create`, pico_export.py 187-197). -/
def newSkeleton (js : List Nat) : Skeleton :=
  ⟨true, lit "var _cartname=[", lit "];\nvar _cdpos=0; var iii=0; var ciii=0;\nvar _cartdat=[", lit "];\n\n" ++ js⟩

/-- **C40 (new files).** The file that an export starts from, with any program text after the two lists, holds no carts. -/
theorem C40_create (size : Nat) (js : List Nat) :
    Represents size (newSkeleton js) (lit ("var _cartname=[];\nvar _cdpos=0; var iii=0; var ciii=0;\nvar _cartdat=[];\n\n") ++ js) [] := by
  refine ⟨⟨?_, ?_, ?_, ?_, ?_⟩, by simp, by simp, [], [], ?_, by simp, by simp, rfl, ?_⟩
  · show First (lit "_cartname") (lit "var _cartname=[")
    exact firstB plain_name (by decide +kernel)
  · show First (lit "_cartdat") (lit "var _cartname=[" ++ lit "];\nvar _cdpos=0; var iii=0; var ciii=0;\nvar _cartdat=[")
    exact firstB plain_data (by decide +kernel)
  · rfl
  · show EndsHead (lit "_cartdat") (lit "];\nvar _cdpos=0; var iii=0; var ciii=0;\nvar _cartdat=[")
    exact (endsHeadB_iff plain_data).mp (by decide +kernel)
  · rfl
  · unfold Skeleton.fill newSkeleton
    simp only [if_true, List.nil_append]
    rw [← List.append_assoc, ← List.append_assoc]
    rfl
  · simp [parseData, pyStrip, pyRstrip]

/-- Two carts of four bytes inserted into a new file, one of them renamed, seen in the resulting text. -/
example : writeAll (impl 4) (lit "var _cartname=[];\nvar _cdpos=0; var iii=0; var ciii=0;\nvar _cartdat=[];\n\nx()")
    [.insert (lit "b.p8") [1, 2, 3, 4] none, .insert (lit "a.p8") [5, 6, 7, 8] (some (lit "b.p8")), .rename none (lit "c.p8")] =
    some (lit ("var _cartname=[`c.p8`, `b.p8`];\nvar _cdpos=0; var iii=0; var ciii=0;\n" ++
      "var _cartdat=[\n5,6,7,8,1,2,3,4];\n\nx()")) := by
  simp [writeAll, writeCart, impl, carts, insert, rename, finishWrite, dataText]
  decide +kernel

/-- It is a history that `C40_history` speaks about. -/
example : applyAll [] [.insert (lit "b.p8") [1, 2, 3, 4] none, .insert (lit "a.p8") [5, 6, 7, 8] (some (lit "b.p8")),
    .rename none (lit "c.p8")] = some [(lit "c.p8", [5, 6, 7, 8]), (lit "b.p8", [1, 2, 3, 4])] := by decide

/-- **C40** needs the restriction on names: a comma makes two names of one, a square bracket ends the list, and a name can even be taken
for the list of data. -/
theorem C40_name_counterexample :
    (writeCart (impl 2) (lit "var _cartname=[];var _cartdat=[];") (.insert (lit "ab,cd") [1, 2] none) =
        some (lit "var _cartname=[`ab,cd`];var _cartdat=[\n1,2];") ∧
      listCarts (impl 2) (lit "var _cartname=[`ab,cd`];var _cartdat=[\n1,2];") = some [lit "a", lit "d"]) ∧
    (writeCart (impl 2) (lit "var _cartname=[];var _cartdat=[];") (.insert (lit "ab]") [1, 2] none) =
        some (lit "var _cartname=[`ab]`];var _cartdat=[\n1,2];") ∧
      listCarts (impl 2) (lit "var _cartname=[`ab]`];var _cartdat=[\n1,2];") = some [lit "a"]) ∧
    writeCart (impl 2) (lit "var _cartname=[];var _cartdat=[];") (.insert (lit "var _cartdat=[") [1, 2] none) =
      some (lit "var _cartname=[`var _cartdat=[\n1,2];var _cartdat=[];") := by
  refine ⟨⟨by decide +kernel, by decide +kernel⟩, ⟨by decide +kernel, by decide +kernel⟩, by decide +kernel⟩

end Verif.JsExport
