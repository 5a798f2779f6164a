import Verif.StoredLemmas
import Verif.Props.Pxu
import Verif.Props.Lz4
import Verif.Props.Url
/-! Writing and reading stored pods: the compressed userdata, LZ4 and base64. -/
set_option linter.unusedSectionVars false
namespace Verif.Stored
open Verif.Pxu (UD writePxu readPxu sig)
open Verif.PodText
open Verif.LuaStr (encode decode)

variable {F : Type} [DecidableEq F] {fl : Floats F} {sf : List Nat → List Nat}

/-- Userdata that are not taken out are text. -/
def Seg.cut (b : UD → Bool) (sf : List Nat → List Nat) : Seg → Seg
  | .txt t => .txt t
  | .ud u => if b u then .ud u else .txt (fmtUd sf u)

theorem fill_cut (b : UD → Bool) (g : UD → List Nat) (l : List Seg) :
    fill g (l.map (Seg.cut b sf)) = fill (fun u => (if b u then some (g u) else none).getD (fmtUd sf u)) l := by
  induction l with
  | nil => rfl
  | cons a l ih =>
    rw [List.map_cons, fill_cons, fill_cons, ih]
    congr 1
    cases a with
    | txt t => rfl
    | ud u => by_cases h : b u <;> simp [Seg.cut, Seg.fill, h]

theorem gaps_cut (b : UD → Bool) (l : List Seg) : gaps (l.map (Seg.cut b sf)) = (gaps l).filter b := by
  induction l with
  | nil => rfl
  | cons a l ih =>
    cases a with
    | txt t => exact ih
    | ud u => by_cases h : b u <;> simp [Seg.cut, gaps, h, ih]

theorem cut_ok {Q : UD → Prop} (b : UD → Bool) {l : List Seg} (h : ∀ x ∈ l, SegOk Q x) (hs : ∀ u, Q u → Solid (fmtUd sf u)) :
    ∀ x ∈ l.map (Seg.cut b sf), SegOk (fun u => Q u ∧ b u = true) x := by
  intro x hx
  obtain ⟨y, hy, rfl⟩ := List.mem_map.1 hx
  have := h y hy
  cases y with
  | txt t => exact this
  | ud u =>
    by_cases hb : b u = true
    · simp only [Seg.cut, if_pos hb]; exact ⟨this, hb⟩
    · simp only [Seg.cut, if_neg hb]; exact hs u this

/-- The bytes of the text. -/
def Seg.enc : Seg → Seg
  | .txt t => .txt ((encode t).getD [])
  | .ud u => .ud u

theorem gaps_enc (l : List Seg) : gaps (l.map Seg.enc) = gaps l := by
  induction l with
  | nil => rfl
  | cons a l ih => cases a <;> simp [Seg.enc, gaps, ih]

theorem encode_fill {Q : UD → Prop} {w : List Nat} (hw : encode w = some w) : ∀ {l : List Seg}, (∀ x ∈ l, SegOk Q x) →
    encode (fill (fun _ => w) l) = some (fill (fun _ => w) (l.map Seg.enc))
  | [], _ => rfl
  | a :: l, h => by
    rw [fill_cons, List.map_cons, fill_cons, encode_append, encode_fill hw (fun x hx => h x (by simp [hx]))]
    have ha := h a (by simp)
    cases a with
    | txt t =>
      obtain ⟨bs, h1, -⟩ := ha
      simp [Seg.fill, Seg.enc, h1]
    | ud u => simp [Seg.fill, Seg.enc, hw]

theorem decode_fill {Q : UD → Prop} {w : List Nat} (hw : Solid w) (hw' : encode w = some w) : ∀ {l : List Seg}, (∀ x ∈ l, SegOk Q x) →
    decode (fill (fun _ => w) (l.map Seg.enc)) = fill (fun _ => w) l
  | [], _ => rfl
  | a :: l, h => by
    rw [fill_cons, List.map_cons, fill_cons]
    have ih := decode_fill hw hw' (l := l) (fun x hx => h x (by simp [hx]))
    have ha := h a (by simp)
    cases a with
    | txt t =>
      obtain ⟨bs, h1, h2, -⟩ := ha
      simp only [Seg.fill, Seg.enc, h1, Option.getD_some]
      rw [h2, ih]
    | ud u =>
      obtain ⟨bs, h1, h2, -⟩ := hw
      rw [hw'] at h1
      cases h1
      simp only [Seg.fill, Seg.enc]
      rw [h2, ih]

/-- Bytes without 0 around the gaps. -/
def ByteSeg : Seg → Prop
  | .txt t => 0 ∉ t ∧ ∀ b ∈ t, b < 256
  | .ud _ => True

theorem enc_ok {Q : UD → Prop} {l : List Seg} (h : ∀ x ∈ l, SegOk Q x) : ∀ x ∈ l.map Seg.enc, ByteSeg x := by
  intro x hx
  obtain ⟨y, hy, rfl⟩ := List.mem_map.1 hx
  have := h y hy
  cases y with
  | txt t =>
    obtain ⟨bs, h1, -, h3, h4⟩ := this
    simp only [Seg.enc, h1, Option.getD_some]
    exact ⟨h4, h3⟩
  | ud u => trivial

theorem findFrom_eq {pat a r : List Nat} {i : Nat} (hi : i ≤ a.length) (h : pat <+: r) (hn : ∀ j < a.length, i ≤ j → ¬ pat <+: (a ++ r).drop j) :
    findFrom pat (a ++ r) i = some a.length := by
  unfold findFrom
  rw [PtFile.findSub_eq (i := a.length - i)]
  · simp; omega
  · rw [List.drop_drop, show i + (a.length - i) = a.length by omega, List.drop_left]; exact h
  · intro j hj
    rw [List.drop_drop]
    exact hn _ (by omega) (by omega)

theorem find_zero {a r : List Nat} {i : Nat} (hi : i ≤ a.length) (h0 : 0 ∉ a.drop i) : findFrom [0] (a ++ 0 :: r) i = some a.length := by
  refine findFrom_eq hi (by simp) ?_
  intro j hj hij h
  rw [List.drop_append_of_le_length (by omega), List.drop_eq_getElem_cons hj] at h
  obtain ⟨t, ht⟩ := h
  simp only [List.cons_append, List.nil_append, List.cons.injEq] at ht
  apply h0
  rw [ht.1]
  rw [List.mem_iff_getElem?]
  exact ⟨j - i, by rw [List.getElem?_drop, show i + (j - i) = j by omega, List.getElem?_eq_getElem hj]⟩

theorem splice_eq (D : UD → List Nat) : ∀ (l : List Seg), (∀ x ∈ l, ByteSeg x) → ∀ (pre : List Nat) (i : Nat), i ≤ pre.length → 0 ∉ pre.drop i →
    splice ((gaps l).map D) i (pre ++ fill (fun _ => [0]) l) = some (pre ++ fill D l)
  | [], _, pre, i, _, _ => rfl
  | .txt t :: l, h, pre, i, hi, h0 => by
    have ht := (h (.txt t) (by simp)).1
    have := splice_eq D l (fun x hx => h x (by simp [hx])) (pre ++ t) i (by simp; omega) (by
      rw [List.drop_append_of_le_length hi]; simp [h0, ht])
    rw [fill_cons, fill_cons]
    simpa [gaps, Seg.fill] using this
  | .ud u :: l, h, pre, i, hi, h0 => by
    have := splice_eq D l (fun x hx => h x (by simp [hx])) (pre ++ D u) (pre.length + (D u).length) (by simp) (by
      rw [List.drop_of_length_le (by simp)]; simp)
    rw [fill_cons, fill_cons, gaps, List.map_cons, splice]
    simp only [Seg.fill]
    rw [List.singleton_append, find_zero hi h0]
    simp only [Option.bind_some]
    rw [List.take_left, show pre.length + 1 = (pre ++ [0]).length by simp, show pre ++ 0 :: fill (fun _ => [0]) l = (pre ++ [0]) ++ fill (fun _ => [0]) l by simp,
      List.drop_left, this]
    simp

theorem find_sig {a r : List Nat} {i : Nat} (hi : i ≤ a.length) (h0 : 0 ∉ a.drop i) : findFrom sig (a ++ (sig ++ r)) i = some a.length := by
  refine findFrom_eq hi (by simp) ?_
  intro j hj hij h
  obtain ⟨t, ht⟩ := h
  have hz : (a ++ (sig ++ r))[j + 3]? = some 0 := by
    rw [← List.getElem?_drop, ← ht]; rfl
  have hza : ∀ k, j ≤ k → k < a.length → a[k]? ≠ some 0 := by
    intro k h1 h2 e
    apply h0
    rw [List.mem_iff_getElem?]
    exact ⟨k - i, by rw [List.getElem?_drop, show i + (k - i) = k by omega, e]⟩
  by_cases h3 : j + 3 < a.length
  · rw [List.getElem?_append_left h3] at hz
    exact hza _ (by omega) h3 hz
  · rw [List.getElem?_append_right (by omega)] at hz
    obtain ⟨k, hk⟩ : ∃ k, j + 3 - a.length = k := ⟨_, rfl⟩
    rw [hk] at hz
    rcases (by omega : k = 0 ∨ k = 1 ∨ k = 2) with rfl | rfl | rfl <;> simp [sig] at hz

theorem find_sig_none {a : List Nat} {i : Nat} (h0 : 0 ∉ a.drop i) : findFrom sig a i = none := by
  cases h : findFrom sig a i with
  | none => rfl
  | some j =>
    exfalso
    obtain ⟨h1, ⟨t, ht⟩, -⟩ := findFrom_some h
    apply h0
    rw [List.mem_iff_getElem?]
    refine ⟨j - i + 3, ?_⟩
    rw [List.getElem?_drop, show i + (j - i + 3) = j + 3 by omega, ← List.getElem?_drop, ← ht]
    rfl

/-- What a userdata is replaced with, and is read back from. -/
def Reads (D : UD → List Nat) (u : UD) : Prop := sig <+: D u ∧ (∀ r, readPxu (D u ++ r) = some (u, r)) ∧ ∀ b ∈ D u, b < 256

theorem call_nonzero : 0 ∉ udCall := by decide

theorem unsplice_eq (D : UD → List Nat) : ∀ (l : List Seg), (∀ x ∈ l, ByteSeg x) → (∀ u ∈ gaps l, Reads D u) →
    ∀ (fuel : Nat) (pre : List Nat) (i : Nat), (gaps l).length ≤ fuel → i ≤ pre.length → 0 ∉ pre.drop i →
    unsplice fuel i (pre ++ fill D l) = some (gaps l, pre ++ fill (fun _ => udCall) l)
  | [], _, _, fuel, pre, i, _, _, h0 => by
    rw [fill_nil, fill_nil, List.append_nil]
    cases fuel with
    | zero => rfl
    | succ fuel => rw [unsplice, find_sig_none h0]; rfl
  | .txt t :: l, h, hr, fuel, pre, i, hf, hi, h0 => by
    have ht := (h (.txt t) (by simp)).1
    have := unsplice_eq D l (fun x hx => h x (by simp [hx])) hr fuel (pre ++ t) i hf (by simp; omega) (by
      rw [List.drop_append_of_le_length hi]; simp [h0, ht])
    rw [fill_cons, fill_cons]
    simpa [gaps, Seg.fill] using this
  | .ud u :: l, h, hr, fuel, pre, i, hf, hi, h0 => by
    obtain ⟨h1, h2, -⟩ := hr u (by simp [gaps])
    cases fuel with
    | zero => simp [gaps] at hf
    | succ fuel =>
      have ih := unsplice_eq D l (fun x hx => h x (by simp [hx])) (fun v hv => hr v (by simp [gaps, hv])) fuel (pre ++ udCall) pre.length
        (by simpa [gaps] using hf) (by simp) (by rw [List.drop_left]; exact call_nonzero)
      rw [fill_cons, fill_cons, unsplice]
      simp only [Seg.fill]
      obtain ⟨t, ht⟩ := h1
      have hfind : findFrom sig (pre ++ (D u ++ fill D l)) i = some pre.length := by
        rw [← ht, List.append_assoc]; exact find_sig hi h0
      rw [hfind]
      simp only
      rw [List.drop_left, h2]
      simp only [Option.bind_some]
      rw [List.take_left, show txt "userdata()" = udCall from rfl, ih]
      simp [gaps]

/-! ### LZ4 -/

theorem pack_u4 {n : Int} {b : List Nat} (h : packU false 4 n = some b) : b.length = 4 ∧ (∀ x ∈ b, x < 256) ∧ ∀ r, unpackU false 4 (b ++ r) = some (n, r) :=
  (C52_unsigned false 4 n).2 b h

theorem packLz4_def (value : List Nat) : packLz4 value = (Lz4.compress false value).bind fun c =>
    (packU false 4 (c.length : Int)).bind fun n => (packU false 4 (value.length : Int)).bind fun m =>
      some (if (lz4Prefix ++ n ++ m ++ c).length < value.length then lz4Prefix ++ n ++ m ++ c else value) := rfl

theorem unpackLz4_eq {n m c : List Nat} {k : Int} (h1 : unpackU false 4 (n ++ (m ++ c)) = some ((c.length : Int), m ++ c))
    (h2 : unpackU false 4 (m ++ c) = some (k, c)) : unpackLz4 (lz4Prefix ++ n ++ m ++ c) = Lz4.uncompress c := by
  unfold unpackLz4
  rw [List.append_assoc, List.append_assoc, show ∀ r, (lz4Prefix ++ r).drop 4 = r from fun _ => rfl]
  revert h1 h2
  generalize unpackU false 4 = U
  intro h1 h2
  rw [h1]
  simp only [Option.bind_eq_bind, Option.bind_some]
  rw [h2]
  simp only [Option.bind_some]
  rw [Int.toNat_natCast, if_neg (Nat.lt_irrefl _), List.take_length]

theorem unpack_pack {value packed : List Nat} (hv : ∀ b ∈ value, b < 256) (h : packLz4 value = some packed) :
    (∀ b ∈ packed, b < 256) ∧ packed.length ≤ value.length ∧ (packed = value ∨ lz4Prefix <+: packed ∧ unpackLz4 packed = some value) := by
  obtain ⟨c, c1, c2, c3⟩ := Lz4.C33_writer false hv
  have c4 := Lz4.C33_reads_blocks c2 hv
  rw [packLz4_def, c1, Option.bind_some, Option.bind_eq_some_iff] at h
  obtain ⟨n, hn, h⟩ := h
  rw [Option.bind_eq_some_iff] at h
  obtain ⟨m, hm, h⟩ := h
  rw [Option.some.injEq] at h
  obtain ⟨n1, n2, n3⟩ := pack_u4 hn
  obtain ⟨m1, m2, m3⟩ := pack_u4 hm
  have hu := unpackLz4_eq (n3 (m ++ c)) (m3 c)
  rw [c4] at hu
  split at h
  · rename_i hl
    subst h
    refine ⟨?_, Nat.le_of_lt hl, .inr ⟨⟨n ++ m ++ c, by simp⟩, hu⟩⟩
    intro b hb
    simp only [List.mem_append] at hb
    rcases hb with ((hb | hb) | hb) | hb
    · revert b; decide
    · exact n2 b hb
    · exact m2 b hb
    · exact c3 b hb
  · exact ⟨h ▸ hv, by rw [h]; exact Nat.le_refl _, .inl h.symm⟩

theorem pack_u4_some {n : Nat} (h : n < 2 ^ 32) : ∃ b, packU false 4 (n : Int) = some b := by
  have := (C52_unsigned false 4 (n : Int)).1.2 ⟨by omega, by
    have e : (256 ^ 4 : Nat) = 2 ^ 32 := by decide
    rw [e]; exact Int.ofNat_lt.2 h⟩
  exact Option.isSome_iff_exists.1 this

/-- Where the writer of LZ4 fails, a size does not fit. -/
theorem pack_none {value : List Nat} (hv : ∀ b ∈ value, b < 256) (h : packLz4 value = none) :
    2 ^ 32 ≤ value.length ∨ ∃ c, Lz4.compress false value = some c ∧ 2 ^ 32 ≤ c.length := by
  obtain ⟨c, c1, c2, c3⟩ := Lz4.C33_writer false hv
  rcases Nat.lt_or_ge value.length (2 ^ 32) with h1 | h1
  · rcases Nat.lt_or_ge c.length (2 ^ 32) with h2 | h2
    · exfalso
      obtain ⟨m, hm⟩ := pack_u4_some h1
      obtain ⟨n, hn⟩ := pack_u4_some h2
      rw [packLz4_def, c1, Option.bind_some, hn, Option.bind_some, hm, Option.bind_some] at h
      cases h
    · exact .inr ⟨c, c1, h2⟩
  · exact .inl h1

/-! ### Userdata -/

/-- The bytes that stand for a userdata. -/
def pxuOf (o : Opts) (isDig : Nat → Bool) (u : UD) : List Nat := ((handle o isDig u).getD none).getD []

/-- Whether they are used. -/
def isPxu (o : Opts) (isDig : Nat → Bool) (u : UD) : Bool := (placeholder o isDig u).isSome

theorem placeholder_eq (o : Opts) (isDig : Nat → Bool) (u : UD) : placeholder o isDig u = if isPxu o isDig u then some [0] else none := by
  unfold isPxu placeholder
  rcases handle o isDig u with _ | _ | d <;> rfl

theorem handles {o : Opts} {isDig : Nat → Bool} : ∀ {l : List UD} {ds : List (Option (List Nat))}, l.mapM (handle o isDig) = some ds →
    ds.filterMap id = (l.filter (isPxu o isDig)).map (pxuOf o isDig)
  | [], ds, h => by
    rw [List.mapM_nil] at h; cases h; rfl
  | u :: l, ds, h => by
    rw [List.mapM_cons] at h
    cases hu : handle o isDig u with
    | none => rw [hu] at h; cases h
    | some d =>
      cases hl : l.mapM (handle o isDig) with
      | none => rw [hu, hl] at h; cases h
      | some es =>
        rw [hu, hl] at h
        simp only [Option.bind_eq_bind, Option.bind_some, pure, Option.some.injEq] at h
        subst h
        have ih := handles hl
        cases d with
        | none => simp [isPxu, placeholder, hu, ih]
        | some d => simp [isPxu, placeholder, hu, ih, pxuOf]

theorem handles_some {o : Opts} {isDig : Nat → Bool} {l : List UD} (h : ∀ u ∈ l, (handle o isDig u).isSome) : ∃ ds, l.mapM (handle o isDig) = some ds := by
  induction l with
  | nil => exact ⟨[], rfl⟩
  | cons u l ih =>
    obtain ⟨d, hd⟩ := Option.isSome_iff_exists.1 (h u (by simp))
    obtain ⟨ds, hds⟩ := ih fun x hx => h x (by simp [hx])
    exact ⟨d :: ds, by rw [List.mapM_cons, hd, hds]; rfl⟩

theorem writePxu_sig {u : UD} {runtime : Nat} {d : List Nat} (h : writePxu u runtime = some (some d)) : sig <+: d := by
  unfold writePxu at h
  split at h
  · cases h
  · split at h
    · cases h
    · simp only [Option.bind_eq_bind, Option.bind_eq_some_iff, pure] at h
      obtain ⟨f, -, w, -, h⟩ := h
      split at h
      all_goals
        simp only [Option.bind_eq_some_iff, Option.some.injEq] at h
        obtain ⟨hh, -, dd, -, rr, -, rfl⟩ := h
        simp

theorem handle_reads {o : Opts} {isDig : Nat → Bool} {u : UD} (h : Storable o.runtime u) (hp : o.usePxu = true) :
    (handle o isDig u).isSome ∧ (isPxu o isDig u = true → Reads (pxuOf o isDig) u) := by
  have hh : handle o isDig u = (writePxu u o.runtime).map fun d => d.filter fun d => decide (d.length < (fmtUd (fmtStr isDig) u).length) := by
    unfold handle; rw [if_pos hp]
  rcases h with h | h | ⟨n, w, hgt, h1, h2, h3, h4, h5, h6, h7⟩
  · have := (Pxu.C38_uncompressed u o.runtime).2 (.inl h)
    rw [this] at hh
    exact ⟨by rw [hh]; rfl, by intro hb; unfold isPxu placeholder at hb; rw [hh] at hb; cases hb⟩
  · have := (Pxu.C38_uncompressed u o.runtime).2 (.inr h)
    rw [this] at hh
    exact ⟨by rw [hh]; rfl, by intro hb; unfold isPxu placeholder at hb; rw [hh] at hb; cases hb⟩
  · obtain ⟨bytes, k1, k2, k3⟩ := Pxu.C38_roundtrip u o.runtime n w hgt h1 h2 h3 h4 h5 h6 h7
    rw [k1] at hh
    refine ⟨by rw [hh]; rfl, ?_⟩
    intro hb
    unfold isPxu placeholder at hb
    have e : pxuOf o isDig u = bytes := by
      unfold pxuOf
      rw [hh] at hb ⊢
      by_cases hl : bytes.length < (fmtUd (fmtStr isDig) u).length
      · simp [Option.filter, hl]
      · simp [Option.filter, hl] at hb
    unfold Reads
    rw [e]
    exact ⟨writePxu_sig k1, k3, k2⟩

/-! ### The first byte -/

def firstOk (x : Seg) : Prop := ∀ t, x = .txt t → ∃ c r, t = c :: r ∧ c < 128 ∧ c ≠ 98 ∧ c ≠ 108

theorem num_first {s : List Nat} (h : NumTok s) : ∃ c r, s = c :: r ∧ c < 128 ∧ c ≠ 98 ∧ c ≠ 108 := by
  obtain ⟨⟨c, t, rfl, h⟩, -⟩ := h
  refine ⟨c, t, rfl, ?_⟩
  rcases h with h | ⟨rfl, -⟩
  · simp only [isDigit, Bool.and_eq_true, decide_eq_true_eq] at h; omega
  · omega

theorem seg_first (hl : Lits sf) : ∀ v : Val F, v.Ok fl → ∃ x l, segVal fl sf v = x :: l ∧ firstOk x
  | .nil, _ => ⟨_, _, by rw [segVal], by intro t h; cases h; exact ⟨110, _, rfl, by omega, by omega, by omega⟩⟩
  | .bool b, _ => ⟨_, _, by rw [segVal], by intro t h; cases h; cases b <;> exact ⟨_, _, rfl, by decide, by decide, by decide⟩⟩
  | .int v, h => ⟨_, _, by rw [segVal], by
      intro t e; cases e
      rw [Val.Ok] at h
      rw [fmtInt_eq h]
      split
      · exact ⟨_, _, rfl, by omega, by omega, by omega⟩
      · exact num_first (natDigits_numTok _)⟩
  | .float f, h => ⟨_, _, by rw [segVal], by
      intro t e; cases e
      rw [Val.Ok] at h
      unfold fmtFloat
      split
      · exact ⟨_, _, rfl, by omega, by omega, by omega⟩
      · exact num_first h.tok⟩
  | .str s, _ => ⟨_, _, by rw [segVal], by
      intro t e; cases e
      obtain ⟨t, ht⟩ := hl.head s
      exact ⟨_, _, ht, by omega, by omega, by omega⟩⟩
  | .ud u, _ => ⟨_, _, by rw [segVal], by intro t e; cases e⟩
  | .table t, _ => ⟨_, _, by rw [segVal], by intro t e; cases e; exact ⟨_, _, rfl, by omega, by omega, by omega⟩⟩

theorem value_first {b : UD → Bool} {D : UD → List Nat} {Q : UD → Prop} (hl : Lits sf) {v : Val F} (hv : v.Ok fl)
    (hok : ∀ x ∈ segVal fl sf v, SegOk Q x) (hsu : ∀ u, Q u → Solid (fmtUd sf u)) (hD : ∀ u ∈ (udsVal v).filter b, sig <+: D u) :
    ∃ c r, fill D (((segVal fl sf v).map (Seg.cut b sf)).map Seg.enc) = c :: r ∧ c ≠ 98 ∧ c ≠ 108 := by
  have hg : ∀ u ∈ gaps ((segVal fl sf v).map (Seg.cut b sf)), sig <+: D u := by rw [gaps_cut, gaps_val]; exact hD
  obtain ⟨x, l, e, hx⟩ := seg_first (fl := fl) hl v hv
  rw [e, List.map_cons] at hg ⊢
  rw [List.map_cons, fill_cons]
  cases x with
  | txt t =>
    obtain ⟨c, r, rfl, h1, h2, h3⟩ := hx t rfl
    obtain ⟨bs, hbs, -⟩ := hok (.txt (c :: r)) (by rw [e]; simp)
    rw [encode_ascii h1] at hbs
    cases hr : encode r with
    | none => rw [hr] at hbs; cases hbs
    | some r' =>
      exact ⟨c, r' ++ fill D (List.map Seg.enc (List.map (Seg.cut b sf) l)), by
        simp only [Seg.cut, Seg.enc, Seg.fill, encode_ascii h1, hr, Option.map_some, Option.getD_some, List.cons_append], h2, h3⟩
  | ud u =>
    by_cases hb : b u = true
    · simp only [Seg.cut, if_pos hb] at hg ⊢
      obtain ⟨t, ht⟩ := hg u (by simp [gaps])
      exact ⟨0x70, _, by simp only [Seg.enc, Seg.fill, ← ht]; rfl, by omega, by omega⟩
    · obtain ⟨bs, hbs, -⟩ := hsu u (hok (.ud u) (by rw [e]; simp))
      have ht : ∃ r, fmtUd sf u = 117 :: r := ⟨_, rfl⟩
      obtain ⟨r, hr⟩ := ht
      rw [hr, encode_ascii (by omega)] at hbs
      cases hr' : encode r with
      | none => rw [hr'] at hbs; cases hbs
      | some r' =>
        exact ⟨117, r' ++ fill D (List.map Seg.enc (List.map (Seg.cut b sf) l)), by
          simp only [Seg.cut, if_neg hb, Seg.enc, Seg.fill, hr, encode_ascii (show 117 < 128 by omega), hr', Option.map_some, Option.getD_some,
            List.cons_append], by omega, by omega⟩

theorem fill_bytes {D : UD → List Nat} : ∀ {l : List Seg}, (∀ x ∈ l, ByteSeg x) → (∀ u ∈ gaps l, ∀ b ∈ D u, b < 256) → ∀ b ∈ fill D l, b < 256
  | [], _, _, b, hb => by cases hb
  | .txt t :: l, h, hu, b, hb => by
    rw [fill_cons] at hb
    rcases List.mem_append.1 hb with hb | hb
    · exact (h (.txt t) (by simp)).2 b hb
    · exact fill_bytes (l := l) (fun x hx => h x (by simp [hx])) hu b hb
  | .ud u :: l, h, hu, b, hb => by
    rw [fill_cons] at hb
    rcases List.mem_append.1 hb with hb | hb
    · exact hu u (by simp [gaps]) b hb
    · exact fill_bytes (fun x hx => h x (by simp [hx])) (fun v hv => hu v (by simp [gaps, hv])) b hb

theorem gaps_le {D : UD → List Nat} : ∀ {l : List Seg}, (∀ u ∈ gaps l, sig <+: D u) → (gaps l).length ≤ (fill D l).length
  | [], _ => by simp [gaps]
  | .txt t :: l, h => by
    have := gaps_le (D := D) (l := l) h
    rw [fill_cons, gaps, List.length_append]; omega
  | .ud u :: l, h => by
    have ih := gaps_le (D := D) (l := l) (fun v hv => h v (by simp [gaps, hv]))
    have := (h u (by simp [gaps])).length_le
    rw [fill_cons, gaps, List.length_append, List.length_cons]
    simp only [Seg.fill]
    simp [sig] at this
    omega

/-! ### All of it -/

mutual
/-- The userdata of a pod are as `P` says. -/
theorem uds_of {P : UD → Prop} : ∀ v : Val F, ValBytes P v → ∀ u ∈ udsVal v, P u
  | .nil, _, u, hu | .bool _, _, u, hu | .int _, _, u, hu | .float _, _, u, hu | .str _, _, u, hu => by simp [udsVal] at hu
  | .ud w, h, u, hu => by
    rw [udsVal, List.mem_singleton] at hu; subst hu
    rw [ValBytes] at h
    exact h.2.2
  | .table t, h, u, hu => by
    rw [ValBytes] at h; rw [udsVal] at hu
    exact uds_of_items t h u hu
theorem uds_of_items {P : UD → Prop} : ∀ t : Items F, ItemsBytes P t → ∀ u ∈ udsItems t, P u
  | .nil, _, u, hu => by simp [udsItems] at hu
  | .cons k v t, h, u, hu => by
    rw [ItemsBytes] at h; rw [udsItems] at hu
    rcases List.mem_append.1 hu with hu | hu
    · exact uds_of v h.2.1 u hu
    · exact uds_of_items t h.2.2 u hu
end

theorem core {isDig : Nat → Bool} {o : Opts} (hd : AsciiDig isDig) (ha : AsciiFloats fl) {v : Val F} (hv : v.Ok fl)
    (hb : ValBytes (fun u => o.usePxu = true → Storable o.runtime u) v) :
    ∃ value, (∀ b ∈ value, b < 256) ∧ (∃ c r, value = c :: r ∧ c ≠ 98 ∧ c ≠ 108) ∧
      (∃ ds t, (udsVal v).mapM (handle o isDig) = some ds ∧ encode (fmtVal fl (fmtStr isDig) (placeholder o isDig) v) = some t ∧
        splice (ds.filterMap id) 0 t = some value) ∧
      ∃ us t, unsplice value.length 0 value = some (us, t) ∧ ∀ up, parsePod fl up us (decode t) = some v := by
  have hs : SolidStr (fmtStr isDig) := fun s h => (solid_str hd h).1
  let b := isPxu o isDig
  let D := pxuOf o isDig
  let segs := (segVal fl (fmtStr isDig) v).map (Seg.cut b (fmtStr isDig))
  have ok0 := seg_val ha hs v hv hb
  have hsu : ∀ u, UdOk (fun u => o.usePxu = true → Storable o.runtime u) u → Solid (fmtUd (fmtStr isDig) u) := fun u h => solid_ud hs h.1 h.2.1 h.2.2.1 h.2.2.2.1
  have ok := cut_ok b ok0 hsu
  have okb := enc_ok ok
  have hg : gaps (segs.map Seg.enc) = (udsVal v).filter b := by rw [gaps_enc, gaps_cut, gaps_val]
  have hu := uds_of v hb
  have hr : ∀ u ∈ udsVal v, (handle o isDig u).isSome ∧ (b u = true → Reads D u) := by
    intro u h
    by_cases hp : o.usePxu = true
    · exact handle_reads (hu u h hp) hp
    · have : handle o isDig u = some none := by unfold handle; rw [if_neg hp]
      exact ⟨by rw [this]; rfl, by intro hb; simp only [b, isPxu, placeholder, this] at hb; cases hb⟩
  have hR : ∀ u ∈ gaps (segs.map Seg.enc), Reads D u := by
    rw [hg]
    intro u h
    obtain ⟨h1, h2⟩ := List.mem_filter.1 h
    exact (hr u h1).2 h2
  obtain ⟨ds, hds⟩ := handles_some (fun u h => (hr u h).1)
  refine ⟨fill D (segs.map Seg.enc), fill_bytes okb (fun u h => (hR u h).2.2), value_first (lits_fmtStr hd) hv ok0 hsu ?_, 
    ⟨ds, fill (fun _ => [0]) (segs.map Seg.enc), hds, ?_, ?_⟩, gaps (segs.map Seg.enc), fill (fun _ => udCall) (segs.map Seg.enc), ?_, ?_⟩
  · rw [← hg]; exact fun u h => (hR u h).1
  · rw [← fill_val, show (fun u => (placeholder o isDig u).getD (fmtUd (fmtStr isDig) u)) =
      fun u => (if b u then some [0] else none).getD (fmtUd (fmtStr isDig) u) from funext fun u => by rw [placeholder_eq],
      ← fill_cut b (fun _ => [0])]
    exact encode_fill rfl ok
  · rw [handles hds, ← hg]
    exact splice_eq D _ okb [] 0 (by simp) (by simp)
  · exact unsplice_eq D _ okb hR _ [] 0 (gaps_le fun u h => (hR u h).1) (by simp) (by simp)
  · intro up
    rw [decode_fill (solid_ascii (by decide)) (by decide +kernel) ok, hg, fill_cut, ← taken_val, show (fun u => (if b u then some udCall else none).getD (fmtUd (fmtStr isDig) u)) =
      fun u => (phCall b u).getD (fmtUd (fmtStr isDig) u) from rfl, fill_val]
    exact roundtrip_lits (lits_fmtStr hd) b hv

end Verif.Stored
