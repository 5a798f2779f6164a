import Verif.Icons
import Verif.Spec.Icons
/- Lemmas for C85. -/
namespace Verif.Icons
open IconSpec

/-! ### Windows programs -/

theorem bytes2 {d : List Nat} {p a b : Nat} : bytesAt 2 d p = some [a, b] ↔ d[p]? = some a ∧ d[p + 1]? = some b := by
  unfold bytesAt
  constructor
  · intro h
    split at h
    · next hl =>
      simp only [Option.some.injEq] at h
      have h0 : ((d.drop p).take 2)[0]? = some a := by rw [h]; rfl
      have h1 : ((d.drop p).take 2)[1]? = some b := by rw [h]; rfl
      simpa [List.getElem?_take, List.getElem?_drop] using And.intro h0 h1
    · cases h
  · intro ⟨h0, h1⟩
    have hl := (List.getElem?_eq_some_iff.1 h1).1
    rw [if_pos (by omega)]
    congr 1
    apply List.ext_getElem?
    intro i
    rw [List.getElem?_take, List.getElem?_drop]
    match i with
    | 0 => simpa using h0
    | 1 => simpa using h1
    | i + 2 => simp; omega

theorem bytes4 {d : List Nat} {p a b c e : Nat} :
    bytesAt 4 d p = some [a, b, c, e] ↔ d[p]? = some a ∧ d[p + 1]? = some b ∧ d[p + 2]? = some c ∧ d[p + 3]? = some e := by
  unfold bytesAt
  constructor
  · intro h
    split at h
    · next hl =>
      simp only [Option.some.injEq] at h
      have h0 : ((d.drop p).take 4)[0]? = some a := by rw [h]; rfl
      have h1 : ((d.drop p).take 4)[1]? = some b := by rw [h]; rfl
      have h2 : ((d.drop p).take 4)[2]? = some c := by rw [h]; rfl
      have h3 : ((d.drop p).take 4)[3]? = some e := by rw [h]; rfl
      simpa [List.getElem?_take, List.getElem?_drop] using And.intro h0 (And.intro h1 (And.intro h2 h3))
    · cases h
  · intro ⟨h0, h1, h2, h3⟩
    have hl := (List.getElem?_eq_some_iff.1 h3).1
    rw [if_pos (by omega)]
    congr 1
    apply List.ext_getElem?
    intro i
    rw [List.getElem?_take, List.getElem?_drop]
    match i with
    | 0 => simpa using h0
    | 1 => simpa using h1
    | 2 => simpa using h2
    | 3 => simpa using h3
    | i + 4 => simp; omega

theorem bytesAt_len {n : Nat} {d : List Nat} {p : Nat} {l : List Nat} (h : bytesAt n d p = some l) : l.length = n ∧ p + n ≤ d.length := by
  unfold bytesAt at h
  split at h
  · next hl =>
    cases h
    exact ⟨by simp; omega, hl⟩
  · cases h

theorem u16At_iff {d : List Nat} {p v : Nat} : u16At d p = some v ↔ U16 d p v := by
  unfold u16At
  constructor
  · intro h
    cases hb : bytesAt 2 d p with
    | none => rw [hb] at h; cases h
    | some l =>
      rw [hb] at h
      match l, bytesAt_len hb with
      | [a, b], _ =>
        obtain ⟨h0, h1⟩ := bytes2.1 hb
        refine ⟨a, b, h0, h1, ?_⟩
        simp [leValue] at h
        omega
  · rintro ⟨a, b, h0, h1, rfl⟩
    rw [bytes2.2 ⟨h0, h1⟩]
    simp [leValue]
    omega

theorem u32At_iff {d : List Nat} {p v : Nat} : u32At d p = some v ↔ U32 d p v := by
  unfold u32At
  constructor
  · intro h
    cases hb : bytesAt 4 d p with
    | none => rw [hb] at h; cases h
    | some l =>
      rw [hb] at h
      match l, bytesAt_len hb with
      | [a, b, c, e], _ =>
        obtain ⟨h0, h1, h2, h3⟩ := bytes4.1 hb
        refine ⟨a, b, c, e, h0, h1, h2, h3, ?_⟩
        simp [leValue] at h
        omega
  · rintro ⟨a, b, c, e, h0, h1, h2, h3, rfl⟩
    rw [bytes4.2 ⟨h0, h1, h2, h3⟩]
    simp [leValue]
    omega

theorem u32_fits {d : List Nat} (hd : ∀ x ∈ d, x < 256) {p v : Nat} (h : U32 d p v) : v < 4294967296 := by
  obtain ⟨a, b, c, e, h0, h1, h2, h3, rfl⟩ := h
  have := hd a (List.mem_of_getElem? h0)
  have := hd b (List.mem_of_getElem? h1)
  have := hd c (List.mem_of_getElem? h2)
  have := hd e (List.mem_of_getElem? h3)
  omega

theorem u32_same {d : List Nat} {p v v' : Nat} (h : U32 d p v) (h' : U32 d p v') : v = v' := by
  have := u32At_iff.2 h
  rw [u32At_iff.2 h'] at this
  exact (Option.some.inj this).symm

theorem u16_same {d : List Nat} {p v v' : Nat} (h : U16 d p v) (h' : U16 d p v') : v = v' := by
  have := u16At_iff.2 h
  rw [u16At_iff.2 h'] at this
  exact (Option.some.inj this).symm

theorem u32At_some {d : List Nat} {p : Nat} (h : p + 4 ≤ d.length) : ∃ v, u32At d p = some v := by
  unfold u32At bytesAt
  rw [if_pos h]
  exact ⟨_, rfl⟩

theorem readSections_get {d : List Nat} : ∀ {n pos : Nat} {ss : List Section}, readSections d n pos = some ss →
    ss.length = n ∧ ∀ i s, ss[i]? = some s → InTable d pos i s.vsize s.vaddr s.offset
  | 0, pos, ss, h => by
    simp only [readSections, Option.some.injEq] at h
    subst h
    exact ⟨rfl, fun i s hs => by simp at hs⟩
  | n + 1, pos, ss, h => by
    simp only [readSections] at h
    split at h
    · next vs va x off rest h1 h2 h3 h4 h5 =>
      simp only [Option.some.injEq] at h
      subst h
      obtain ⟨hl, hg⟩ := readSections_get h5
      refine ⟨by simp [hl], fun i s hs => ?_⟩
      cases i with
      | zero =>
        simp only [List.getElem?_cons_zero, Option.some.injEq] at hs
        subst hs
        exact ⟨u32At_iff.1 h1, u32At_iff.1 h2, u32At_iff.1 h4⟩
      | succ i =>
        obtain ⟨g1, g2, g3⟩ := hg i s (by simpa using hs)
        rw [show pos + 40 + 40 * i = pos + 40 * (i + 1) by omega] at g1 g2 g3
        exact ⟨g1, g2, g3⟩
    · cases h

theorem readSections_some {d : List Nat} : ∀ {n pos : Nat}, pos + 40 * n ≤ d.length → ∃ ss, readSections d n pos = some ss
  | 0, pos, h => ⟨[], rfl⟩
  | n + 1, pos, h => by
    obtain ⟨ss, hs⟩ := readSections_some (d := d) (n := n) (pos := pos + 40) (by omega)
    obtain ⟨a, ha⟩ := u32At_some (d := d) (p := pos + 8) (by omega)
    obtain ⟨b, hb⟩ := u32At_some (d := d) (p := pos + 12) (by omega)
    obtain ⟨c, hc⟩ := u32At_some (d := d) (p := pos + 16) (by omega)
    obtain ⟨e, he⟩ := u32At_some (d := d) (p := pos + 20) (by omega)
    simp only [readSections, ha, hb, hc, he, hs]
    exact ⟨_, rfl⟩

theorem rva_some : ∀ {ss : List Section} {rva p : Nat}, rvaToOffset ss rva = some p →
    ∃ (i : Nat) (s : Section), ss[i]? = some s ∧ s.vaddr ≤ rva ∧ rva < s.vaddr + s.vsize ∧ p = s.offset + (rva - s.vaddr)
  | [], rva, p, h => by cases h
  | s :: ss, rva, p, h => by
    unfold rvaToOffset at h
    by_cases hc : s.vaddr ≤ rva ∧ rva < s.vaddr + s.vsize
    · rw [if_pos hc] at h
      cases h
      exact ⟨0, s, rfl, hc.1, hc.2, rfl⟩
    · rw [if_neg hc] at h
      obtain ⟨i, s', h1, h2⟩ := rva_some h
      exact ⟨i + 1, s', by simpa using h1, h2⟩

theorem rva_found : ∀ {ss : List Section} {rva i : Nat} {s : Section}, ss[i]? = some s → s.vaddr ≤ rva → rva < s.vaddr + s.vsize →
    ∃ p, rvaToOffset ss rva = some p
  | [], rva, i, s, h, _, _ => by simp at h
  | t :: ss, rva, i, s, h, h1, h2 => by
    unfold rvaToOffset
    by_cases hc : t.vaddr ≤ rva ∧ rva < t.vaddr + t.vsize
    · rw [if_pos hc]
      exact ⟨_, rfl⟩
    · rw [if_neg hc]
      cases i with
      | zero =>
        simp only [List.getElem?_cons_zero, Option.some.injEq] at h
        subst h
        exact absurd ⟨h1, h2⟩ hc
      | succ i => exact rva_found (by simpa using h) h1 h2

theorem rva_at {d : List Nat} {n pos : Nat} {ss : List Section} (hs : readSections d n pos = some ss) {rva p : Nat}
    (h : rvaToOffset ss rva = some p) : At d n pos rva p := by
  obtain ⟨hl, hg⟩ := readSections_get hs
  obtain ⟨i, s, h1, h2, h3, h4⟩ := rva_some h
  have := (List.getElem?_eq_some_iff.1 h1).1
  exact ⟨i, s.vsize, s.vaddr, s.offset, by omega, hg i s h1, h2, h3, h4⟩

theorem at_rva {d : List Nat} {n pos : Nat} {ss : List Section} (hs : readSections d n pos = some ss) {rva p : Nat}
    (h : At d n pos rva p) : ∃ q, rvaToOffset ss rva = some q := by
  obtain ⟨hl, hg⟩ := readSections_get hs
  obtain ⟨i, size, addr, off, hi, ht, h1, h2, -⟩ := h
  have hx : ss[i]? = some ss[i] := List.getElem?_eq_getElem _
  have g := hg i _ hx
  refine rva_found hx ?_ ?_
  · rw [u32_same g.addr ht.addr]; exact h1
  · rw [u32_same g.addr ht.addr, u32_same g.size ht.size]; exact h2

theorem loop_some {d : List Nat} {t : Nat} : ∀ {n pos v : Nat}, findEntryLoop d t n pos = some (some v) →
    ∃ i, i < n ∧ U32 d (pos + 8 * i) t ∧ U32 d (pos + 8 * i + 4) v
  | 0, pos, v, h => by simp [findEntryLoop] at h
  | n + 1, pos, v, h => by
    unfold findEntryLoop at h
    split at h
    · next idx off h1 h2 =>
      by_cases hi : idx = t
      · rw [if_pos hi] at h
        simp only [Option.some.injEq] at h
        subst h hi
        exact ⟨0, by omega, u32At_iff.1 h1, u32At_iff.1 h2⟩
      · rw [if_neg hi] at h
        obtain ⟨i, h3, h4, h5⟩ := loop_some h
        rw [show pos + 8 + 8 * i = pos + 8 * (i + 1) by omega] at h4 h5
        exact ⟨i + 1, by omega, h4, h5⟩
    · cases h

theorem loop_found {d : List Nat} {t : Nat} : ∀ {n pos v i : Nat}, i < n → U32 d (pos + 8 * i) t → U32 d (pos + 8 * i + 4) v →
    ∃ v', findEntryLoop d t n pos = some (some v')
  | 0, pos, v, i, h, _, _ => by omega
  | n + 1, pos, v, i, h, h1, h2 => by
    have hl : pos + 8 * i + 8 ≤ d.length := by
      obtain ⟨a, b, c, e, -, -, -, h3, -⟩ := h2
      have := (List.getElem?_eq_some_iff.1 h3).1
      omega
    obtain ⟨a, ha⟩ := u32At_some (d := d) (p := pos) (by omega)
    obtain ⟨b, hb⟩ := u32At_some (d := d) (p := pos + 4) (by omega)
    unfold findEntryLoop
    simp only [ha, hb]
    by_cases hi : a = t
    · rw [if_pos hi]
      exact ⟨_, rfl⟩
    · rw [if_neg hi]
      cases i with
      | zero =>
        have := u32At_iff.2 h1
        rw [show pos + 8 * 0 = pos by omega, ha] at this
        exact absurd (Option.some.inj this) hi
      | succ i =>
        rw [show pos + 8 * (i + 1) = pos + 8 + 8 * i by omega] at h1 h2
        exact loop_found (by omega) h1 h2

theorem entry_some {d : List Nat} {rsrc o t v : Nat} (ho : o < 4294967296) (h : findEntry d rsrc o t = some (some v)) :
    ∃ a, o = 2147483648 + a ∧ Entry d (rsrc + a) t v := by
  unfold findEntry at h
  by_cases hb : 0x80000000 ≤ o
  · rw [if_pos hb] at h
    simp only at h
    obtain ⟨a, ha⟩ : ∃ a, o = 2147483648 + a := ⟨o - 2147483648, by omega⟩
    refine ⟨a, ha, ?_⟩
    have hm : o % 0x80000000 = a := by omega
    rw [hm] at h
    split at h
    · next named indexed h1 h2 =>
      obtain ⟨i, hi, h3, h4⟩ := loop_some h
      have e : rsrc + a + 0xc + 4 + named * 8 + 8 * i = rsrc + a + 16 + 8 * (named + i) := by omega
      rw [e] at h3 h4
      exact ⟨named, indexed, i, u16At_iff.1 h1, u16At_iff.1 h2, hi, h3, h4⟩
    · cases h
  · rw [if_neg hb] at h
    cases h

theorem entry_found {d : List Nat} {rsrc a t v : Nat} (ha : a < 2147483648) (h : Entry d (rsrc + a) t v) :
    ∃ v', findEntry d rsrc (2147483648 + a) t = some (some v') := by
  obtain ⟨named, indexed, i, h1, h2, hi, h3, h4⟩ := h
  obtain ⟨o, ho⟩ : ∃ o, o = 2147483648 + a := ⟨_, rfl⟩
  have hb : 0x80000000 ≤ o := by omega
  have hm : o % 0x80000000 = a := by omega
  rw [← ho]
  unfold findEntry
  rw [if_pos hb, hm]
  simp only
  rw [u16At_iff.2 h1, show rsrc + a + 0xc + 2 = rsrc + a + 14 by omega, u16At_iff.2 h2]
  rw [show rsrc + a + 16 + 8 * (named + i) = rsrc + a + 0xc + 4 + named * 8 + 8 * i by omega] at h3 h4
  exact loop_found hi h3 h4

/-! ### Apple icons -/

theorem mapM_get {α β : Type} {f : α → Option β} : ∀ {l : List α}, (∀ x ∈ l, ∃ y, f x = some y) →
    ∃ r, l.mapM f = some r ∧ r.length = l.length ∧ ∀ (i : Nat) (x : α), l[i]? = some x → r[i]? = f x
  | [], _ => ⟨[], by simp, rfl, fun i x h => by simp at h⟩
  | a :: l, h => by
    obtain ⟨y, hy⟩ := h a (by simp)
    obtain ⟨r, h1, h2, h3⟩ := mapM_get (l := l) fun x hx => h x (List.mem_cons_of_mem _ hx)
    refine ⟨y :: r, by simp [hy, h1], by simp [h2], fun i x hx => ?_⟩
    cases i with
    | zero =>
      simp only [List.getElem?_cons_zero, Option.some.injEq] at hx ⊢
      subst hx
      exact hy.symm
    | succ i => simpa using h3 i x (by simpa using hx)

theorem flatten_get : ∀ {rows : List (List Nat)} {w : Nat}, (∀ row ∈ rows, row.length = w) → ∀ y x, x < w →
    rows.flatten[x + y * w]? = rows[y]?.bind (·[x]?)
  | [], w, h, y, x, hx => by simp
  | row :: rows, w, h, y, x, hx => by
    have hr := h row (by simp)
    cases y with
    | zero =>
      simp only [List.flatten_cons, Nat.zero_mul, Nat.add_zero, List.getElem?_cons_zero, Option.bind_some]
      rw [List.getElem?_append_left (by omega)]
    | succ y =>
      simp only [List.flatten_cons, List.getElem?_cons_succ]
      rw [List.getElem?_append_right (by rw [Nat.add_mul]; omega), hr,
        show x + (y + 1) * w - w = x + y * w by rw [Nat.add_mul]; omega]
      exact flatten_get (fun r hr => h r (List.mem_cons_of_mem _ hr)) y x hx

theorem flatten_len : ∀ {rows : List (List Nat)} {w : Nat}, (∀ row ∈ rows, row.length = w) → rows.flatten.length = rows.length * w
  | [], w, h => by simp
  | row :: rows, w, h => by
    rw [List.flatten_cons, List.length_append, h row (by simp), flatten_len fun r hr => h r (List.mem_cons_of_mem _ hr), List.length_cons, Nat.add_mul]
    omega

theorem packed_append {a a' b b' : List Nat} (h : Packed a a') (h' : Packed b b') : Packed (a ++ b) (a' ++ b') := by
  induction h with
  | nil => exact h'
  | @copy l out rest n hn hl h ih =>
    have := Packed.copy hn hl ih
    simpa using this
  | @run b n out rest hn h ih =>
    have := Packed.run (b := b) hn ih
    simpa using this

theorem packed_rows : ∀ {rows : List (List Nat)}, (∀ row ∈ rows, row.length = 128) → Packed rows.flatten (rows.map ([0x7f] ++ ·)).flatten
  | [], _ => .nil
  | row :: rows, h => by
    have h1 : Packed (row ++ []) (0x7f :: row ++ []) := .copy (by decide) (h row (by simp)) .nil
    have := packed_append h1 (packed_rows fun r hr => h r (List.mem_cons_of_mem _ hr))
    simpa using this

/-- A channel: its rows, and what is written. -/
theorem icnsChan_ok {raw : List Nat} {n chan : Nat} (mark : List Nat) (h : ∀ i, i < 16384 → i * n + chan < raw.length) :
    ∃ rows : List (List Nat), icnsChan mark raw n chan = some (rows.map (mark ++ ·)).flatten ∧ rows.length = 128 ∧ (∀ row ∈ rows, row.length = 128) ∧
      ∀ i, i < 16384 → rows.flatten[i]? = raw[i * n + chan]? := by
  have hrow : ∀ y, y < 128 → ∃ row, icnsRow raw n chan y = some row ∧ row.length = 128 ∧ ∀ x, x < 128 → row[x]? = raw[(x + y * 128) * n + chan]? := by
    intro y hy
    obtain ⟨row, h1, h2, h3⟩ := mapM_get (f := fun x => raw[(x + y * 0x80) * n + chan]?) (l := List.range 0x80) fun x hx => by
      rw [List.mem_range] at hx
      exact ⟨_, List.getElem?_eq_getElem (h (x + y * 128) (by omega))⟩
    refine ⟨row, h1, by rw [h2, List.length_range], fun x hx => h3 x x (by rw [List.getElem?_range hx])⟩
  obtain ⟨rows, h1, h2, h3⟩ := mapM_get (f := icnsRow raw n chan) (l := List.range 0x80) fun y hy => by
    obtain ⟨row, hr, -⟩ := hrow y (List.mem_range.1 hy)
    exact ⟨row, hr⟩
  rw [List.length_range] at h2
  have hget : ∀ y, y < 128 → ∃ row, rows[y]? = some row ∧ row.length = 128 ∧ ∀ x, x < 128 → row[x]? = raw[(x + y * 128) * n + chan]? := by
    intro y hy
    obtain ⟨row, hr, hl, hx⟩ := hrow y hy
    exact ⟨row, by rw [h3 y y (by rw [List.getElem?_range hy]), hr], hl, hx⟩
  have hlen : ∀ row ∈ rows, row.length = 128 := by
    intro row hr
    obtain ⟨y, hy⟩ := List.getElem?_of_mem hr
    have hy' := (List.getElem?_eq_some_iff.1 hy).1
    obtain ⟨row', h4, h5, -⟩ := hget y (by omega)
    rw [hy] at h4
    cases h4
    exact h5
  refine ⟨rows, ?_, h2, hlen, fun i hi => ?_⟩
  · unfold icnsChan
    have e : ((List.range 0x80).mapM fun y => (icnsRow raw n chan y).map (mark ++ ·)) = some (rows.map (mark ++ ·)) := by
      have gen : ∀ (l : List Nat) (r : List (List Nat)), l.mapM (icnsRow raw n chan) = some r →
          l.mapM (fun y => (icnsRow raw n chan y).map (mark ++ ·)) = some (r.map (mark ++ ·)) := by
        intro l
        induction l with
        | nil => intro r hr; simp at hr; subst hr; rfl
        | cons y l ih =>
          intro r hr
          simp only [List.mapM_cons] at hr ⊢
          cases e1 : icnsRow raw n chan y with
          | none => rw [e1] at hr; simp at hr
          | some row =>
            cases e2 : l.mapM (icnsRow raw n chan) with
            | none => rw [e1, e2] at hr; simp at hr
            | some rs =>
              rw [e1, e2] at hr
              simp at hr
              subst hr
              simp [ih rs e2]
      exact gen _ _ h1
    rw [e]
    rfl
  · obtain ⟨row, h4, h5, h6⟩ := hget (i / 128) (by omega)
    have e : i = i % 128 + i / 128 * 128 := by omega
    rw [e, flatten_get hlen _ _ (by omega), h4, Option.bind_some, h6 _ (by omega)]

theorem big32 {n : Nat} (h : n < 4294967296) : Big32 (leBytes 4 n).reverse n := by
  refine ⟨n / 256 / 256 / 256 % 256, n / 256 / 256 % 256, n / 256 % 256, n % 256, by simp [leBytes], ?_, ?_, ?_, ?_, ?_⟩ <;> omega

theorem big32_same {l : List Nat} {n n' : Nat} (h : Big32 l n) (h' : Big32 l n') : n = n' := by
  obtain ⟨a, b, c, d, e, -, -, -, -, rfl⟩ := h
  obtain ⟨a', b', c', d', e', -, -, -, -, rfl⟩ := h'
  rw [e] at e'
  simp only [List.cons.injEq, and_true] at e'
  obtain ⟨rfl, rfl, rfl, rfl⟩ := e'
  rfl

theorem big32_len {l : List Nat} {n : Nat} (h : Big32 l n) : l.length = 4 := by
  obtain ⟨a, b, c, d, rfl, -⟩ := h
  rfl

theorem elements_same {es es' : List (List Nat × List Nat)} {bs : List Nat} (h : Elements es bs) (h' : Elements es' bs) : es = es' := by
  induction h generalizing es' with
  | nil =>
    generalize hb : ([] : List Nat) = b at h'
    cases h' with
    | nil => rfl
    | cons ht hs h => 
      have := congrArg List.length hb
      simp only [List.length_append, List.length_nil] at this
      omega
  | @cons t size data rest es ht hs h ih =>
    generalize hb : t ++ size ++ data ++ rest = b at h'
    cases h' with
    | nil =>
      have := congrArg List.length hb
      simp only [List.length_append, List.length_nil] at this
      omega
    | @cons t' size' data' rest' es' ht' hs' h' =>
      simp only [List.append_assoc] at hb
      obtain ⟨rfl, hb1⟩ := List.append_inj hb (by omega)
      obtain ⟨rfl, hb2⟩ := List.append_inj hb1 (by rw [big32_len hs, big32_len hs'])
      have := big32_same hs hs'
      obtain ⟨rfl, rfl⟩ := List.append_inj hb2 (by omega)
      rw [ih h']

theorem packed_same {o o' bs : List Nat} (h : Packed o bs) (h' : Packed o' bs) : o = o' := by
  induction h generalizing o' with
  | nil =>
    generalize hb : ([] : List Nat) = b at h'
    cases h' with
    | nil => rfl
    | copy => simp at hb
    | run => simp at hb
  | @copy l out rest n hn hl h ih =>
    generalize hb : n :: l ++ rest = b at h'
    cases h' with
    | nil => simp at hb
    | @copy l' out' rest' n' hn' hl' h' =>
      simp only [List.cons_append, List.cons.injEq] at hb
      obtain ⟨rfl, hb⟩ := hb
      obtain ⟨rfl, rfl⟩ := List.append_inj hb (by omega)
      rw [ih h']
    | run hn' h' =>
      simp only [List.cons_append, List.cons.injEq] at hb
      omega
  | @run b n out rest hn h ih =>
    generalize hb : n :: b :: rest = bb at h'
    cases h' with
    | nil => simp at hb
    | @copy l' out' rest' n' hn' hl' h' =>
      simp only [List.cons_append, List.cons.injEq] at hb
      omega
    | run hn' h' =>
      simp only [List.cons.injEq] at hb
      obtain ⟨rfl, rfl, rfl⟩ := hb
      rw [ih h']

/-- The rows of a channel take a byte more each. -/
theorem rows_len {rows : List (List Nat)} (h1 : rows.length = 128) (h2 : ∀ row ∈ rows, row.length = 128) (mark : List Nat) :
    (rows.map (mark ++ ·)).flatten.length = 128 * (mark.length + 128) := by
  rw [flatten_len (w := mark.length + 128), List.length_map, h1]
  intro row hr
  obtain ⟨row', hr', rfl⟩ := List.mem_map.1 hr
  rw [List.length_append, h2 row' hr']

theorem createIcns_file {raw : List Nat} {alpha : Bool} {n : Nat} (hn : n = if alpha then 4 else 3) {r g b a : List Nat}
    (hr : icnsChan [0x7f] raw n 0 = some r) (hg : icnsChan [0x7f] raw n 1 = some g) (hb : icnsChan [0x7f] raw n 2 = some b)
    (ha : (if alpha then icnsChan [] raw n 3 else some (List.replicate (0x80 * 0x80) 0xff)) = some a)
    (lr : r.length = 128 * 129) (lg : g.length = 128 * 129) (lb : b.length = 128 * 129) (la : a.length = 128 * 128) :
    ∃ bs, createIcns raw alpha = some bs ∧ File [([105, 116, 51, 50], [0, 0, 0, 0] ++ (r ++ g ++ b)), ([116, 56, 109, 107], a)] bs := by
  subst hn
  unfold createIcns
  simp only
  rw [hr, hg, hb, ha]
  refine ⟨_, rfl, _, _, rfl, ?_, ?_⟩
  · have e : ∀ (x y : List Nat), (leBytes 4 x.length).reverse.length = 4 := by intro x y; simp [leBytes]
    refine Eq.subst (motive := fun k => Big32 _ k) ?_ (big32 ?_)
    · simp [leBytes]
      omega
    · simp [leBytes, lr, lg, lb, la]
  · have h2 : Elements [([116, 56, 109, 107], a)] ([116, 56, 109, 107] ++ (leBytes 4 (0x8 + 0x80 * 0x80)).reverse ++ a ++ []) :=
      .cons rfl (by rw [la]; exact big32 (by decide)) .nil
    have h1 : Elements [([105, 116, 51, 50], [0, 0, 0, 0] ++ (r ++ g ++ b)), ([116, 56, 109, 107], a)]
        ([105, 116, 51, 50] ++ (leBytes 4 (0xc + 0x80 * 0x81 * 3)).reverse ++ ([0, 0, 0, 0] ++ (r ++ g ++ b)) ++ _) :=
      .cons rfl (by simp only [List.length_append, lr, lg, lb]; exact big32 (by decide)) h2
    have e0 : (leBytes 4 0).reverse = [0, 0, 0, 0] := by decide
    rw [e0]
    simpa only [List.append_assoc, List.append_nil] using h1

end Verif.Icons
