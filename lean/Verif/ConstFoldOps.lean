import Verif.ConstFoldLemmas
/-
Folding a single operation agrees with the runtime (helpers for Props/ConstFold.lean).

`LV.repr lang a` is the runtime value a folded constant stands for; `none` if the constant cannot occur in that language (a number of the
other language, a number outside its range, a Picotron string that has no byte encoding).
-/
namespace Verif
open Spec

/-- The runtime value of a constant. -/
def LV.repr (lang : Lang) : LV → Option Val
  | .nil => some .nil
  | .bool b => some (.bool b)
  | .fix n => if lang = .pico8 ∧ n < 2 ^ 32 then some (.num (BitVec.ofNat 32 n)) else none
  | .int i => if lang = .picotron ∧ -2 ^ 63 ≤ i ∧ i < 2 ^ 63 then some (.int (BitVec.ofInt 64 i)) else none
  | .str s => match lang with
    | .pico8 => some (.str s)
    | .picotron => (encodeLuastr s).map .str

theorem repr_fix_inv {lang : Lang} {a : Nat} {x : Val} (h : LV.repr lang (.fix a) = some x) :
    lang = .pico8 ∧ a < 2 ^ 32 ∧ x = .num (BitVec.ofNat 32 a) := by
  simp only [LV.repr] at h
  split at h
  · rename_i hc; exact ⟨hc.1, hc.2, (Option.some.inj h).symm⟩
  · simp at h

theorem repr_int_inv {lang : Lang} {a : Int} {x : Val} (h : LV.repr lang (.int a) = some x) :
    lang = .picotron ∧ (-2 ^ 63 ≤ a ∧ a < 2 ^ 63) ∧ x = .int (BitVec.ofInt 64 a) := by
  simp only [LV.repr] at h
  split at h
  · rename_i hc; exact ⟨hc.1, hc.2, (Option.some.inj h).symm⟩
  · simp at h

theorem repr_mkFix (v : Int) : LV.repr .pico8 (LV.mkFix v) = some (.num (BitVec.ofInt 32 v)) := by
  simp only [LV.repr, LV.mkFix]
  rw [if_pos ⟨trivial, by omega⟩, mkFix_val]

theorem repr_mkInt (v : Int) : LV.repr .picotron (LV.mkInt v) = some (.int (BitVec.ofInt 64 v)) := by
  simp only [LV.repr, LV.mkInt]
  rw [if_pos ⟨trivial, toLuaInt_range v⟩, toLuaInt_val]

theorem repr_truthy {lang : Lang} {a : LV} {x : Val} (h : LV.repr lang a = some x) : a.truthy = x.truthy := by
  cases a with
  | nil => simp only [LV.repr, Option.some.injEq] at h; subst h; rfl
  | bool b => simp only [LV.repr, Option.some.injEq] at h; subst h; cases b <;> rfl
  | fix n => obtain ⟨_, _, rfl⟩ := repr_fix_inv h; rfl
  | int n => obtain ⟨_, _, rfl⟩ := repr_int_inv h; rfl
  | str s =>
    cases lang with
    | pico8 => simp only [LV.repr, Option.some.injEq] at h; subst h; rfl
    | picotron =>
      simp only [LV.repr, Option.map_eq_some_iff] at h
      obtain ⟨e, _, rfl⟩ := h; rfl

/-- What has to be shown of a folded operation. -/
def Agrees (lang : Lang) (v : LV) (rt : Option Val) : Prop := ∃ w, LV.repr lang v = some w ∧ rt = some w

/-- The number 32-bit pattern of `a`, abbreviated. -/
abbrev n32 (a : Nat) : BitVec 32 := BitVec.ofNat 32 a
abbrev n64 (a : Int) : BitVec 64 := BitVec.ofInt 64 a

/-- Operations defined on two numbers of the same kind only. -/
theorem lift2 {g : LV → LV → Option LV} {rt : Val → Val → Option Val} {lang : Lang} {a b v : LV} {x y : Val}
    (hg : ∀ a b v, g a b = some v → (∃ m n, a = .fix m ∧ b = .fix n) ∨ (∃ i j, a = .int i ∧ b = .int j))
    (h8 : ∀ m n v, m < 2 ^ 32 → n < 2 ^ 32 → g (.fix m) (.fix n) = some v → Agrees .pico8 v (rt (.num (n32 m)) (.num (n32 n))))
    (h64 : ∀ i j v, -2 ^ 63 ≤ i ∧ i < 2 ^ 63 → -2 ^ 63 ≤ j ∧ j < 2 ^ 63 → g (.int i) (.int j) = some v →
      Agrees .picotron v (rt (.int (n64 i)) (.int (n64 j))))
    (hx : LV.repr lang a = some x) (hy : LV.repr lang b = some y) (h : g a b = some v) : Agrees lang v (rt x y) := by
  rcases hg a b v h with ⟨m, n, rfl, rfl⟩ | ⟨i, j, rfl, rfl⟩
  · obtain ⟨rfl, h1, rfl⟩ := repr_fix_inv hx
    obtain ⟨_, h2, rfl⟩ := repr_fix_inv hy
    exact h8 m n v h1 h2 h
  · obtain ⟨rfl, h1, rfl⟩ := repr_int_inv hx
    obtain ⟨_, h2, rfl⟩ := repr_int_inv hy
    exact h64 i j v h1 h2 h

theorem num_inv (g : LV → LV → Option LV) (h : ∀ a b, (∃ m n, a = .fix m ∧ b = .fix n) ∨ (∃ i j, a = .int i ∧ b = .int j) ∨ g a b = none) :
    ∀ a b v, g a b = some v → (∃ m n, a = .fix m ∧ b = .fix n) ∨ (∃ i j, a = .int i ∧ b = .int j) := by
  intro a b v hv
  rcases h a b with h | h | h
  · exact Or.inl h
  · exact Or.inr h
  · rw [h] at hv; simp at hv

macro "num_kinds" f:ident : tactic => `(tactic| (
  apply num_inv; intro a b
  cases a <;> cases b <;> first
    | exact Or.inl ⟨_, _, rfl, rfl⟩
    | exact Or.inr (Or.inl ⟨_, _, rfl, rfl⟩)
    | exact Or.inr (Or.inr (by simp [$f:ident, luaDiv]))))

variable {lang : Lang} {a b v : LV} {x y : Val} {arith : Bool}

theorem add_ok (hx : LV.repr lang a = some x) (hy : LV.repr lang b = some y) (h : luaAdd a b = some v) :
    Agrees lang v (rtBin arith .add x y) := by
  refine lift2 (g := luaAdd) (rt := rtBin arith .add) (by num_kinds luaAdd) ?_ ?_ hx hy h
  · intro m n v _ _ h
    simp only [luaAdd, Option.some.injEq] at h; subst h
    exact ⟨_, repr_mkFix _, by simp only [rtBin, BitVec.ofInt_add, BitVec.ofInt_natCast]⟩
  · intro m n v _ _ h
    simp only [luaAdd, Option.some.injEq] at h; subst h
    exact ⟨_, repr_mkInt _, by simp only [rtBin, BitVec.ofInt_add]⟩

theorem ofInt_sub (w : Nat) (x y : Int) : BitVec.ofInt w (x - y) = BitVec.ofInt w x - BitVec.ofInt w y := by
  rw [Int.sub_eq_add_neg, BitVec.ofInt_add, BitVec.ofInt_neg, BitVec.sub_eq_add_neg]

theorem sub_ok (hx : LV.repr lang a = some x) (hy : LV.repr lang b = some y) (h : luaSub a b = some v) :
    Agrees lang v (rtBin arith .sub x y) := by
  refine lift2 (g := luaSub) (rt := rtBin arith .sub) (by num_kinds luaSub) ?_ ?_ hx hy h
  · intro m n v _ _ h
    simp only [luaSub, Option.some.injEq] at h; subst h
    exact ⟨_, repr_mkFix _, by simp only [rtBin, ofInt_sub, BitVec.ofInt_natCast]⟩
  · intro m n v _ _ h
    simp only [luaSub, Option.some.injEq] at h; subst h
    exact ⟨_, repr_mkInt _, by simp only [rtBin, ofInt_sub]⟩

/-- A folded result that the code found to be in range. -/
theorem fit_ok {r : Int} {v : LV} (h : (if fixInRange r = true then some (LV.mkFix r) else none) = some v) : Agrees .pico8 v (fit32 r) := by
  split at h
  · rename_i hr
    rw [Option.some.injEq] at h; subst h
    rw [fixInRange_iff] at hr
    exact ⟨_, repr_mkFix _, by unfold fit32; rw [if_pos hr]⟩
  · simp at h

theorem mul_ok (hx : LV.repr lang a = some x) (hy : LV.repr lang b = some y) (h : luaMul a b = some v) :
    Agrees lang v (rtBin arith .mul x y) := by
  refine lift2 (g := luaMul) (rt := rtBin arith .mul) (by num_kinds luaMul) ?_ ?_ hx hy h
  · intro m n v h1 h2 h
    simp only [luaMul] at h
    rw [fixToSigned_eq h1, fixToSigned_eq h2, Int.fdiv_eq_ediv_of_nonneg _ (by decide)] at h
    exact fit_ok h
  · intro m n v _ _ h
    simp only [luaMul, Option.some.injEq] at h; subst h
    exact ⟨_, repr_mkInt _, by simp only [rtBin, BitVec.ofInt_mul]⟩

theorem n32_eq_zero {n : Nat} (h : n < 2 ^ 32) : n32 n = 0 ↔ n = 0 := by
  constructor
  · intro e
    have := congrArg BitVec.toNat e
    rw [BitVec.toNat_ofNat, Nat.mod_eq_of_lt h] at this
    exact this
  · rintro rfl; rfl

theorem n64_eq_zero {n : Int} (h : -2 ^ 63 ≤ n ∧ n < 2 ^ 63) : n64 n = 0 ↔ n = 0 := by
  constructor
  · intro e
    have := congrArg BitVec.toInt e
    rw [ofInt64_toInt h] at this
    exact this
  · rintro rfl; rfl

theorem div_ok (hx : LV.repr lang a = some x) (hy : LV.repr lang b = some y) (h : luaDiv a b = some v) :
    Agrees lang v (rtBin arith .div x y) := by
  refine lift2 (g := luaDiv) (rt := rtBin arith .div) (by num_kinds luaDiv) ?_ ?_ hx hy h
  · intro m n v h1 h2 h
    simp only [luaDiv] at h
    split at h
    · rename_i hn
      rw [divTrunc_eq, fixToSigned_eq h1, fixToSigned_eq h2] at h
      simp only [rtBin]
      rw [if_neg (by rw [n32_eq_zero h2]; exact hn)]
      exact fit_ok h
    · simp at h
  · intro m n v _ _ h
    simp [luaDiv] at h

theorem floor_val {r : Int} : luaFloor (LV.mkFix r) = some (LV.mkFix (r / 65536 * 65536)) := by
  unfold LV.mkFix luaFloor
  simp only [Option.some.injEq]
  rw [and_high16 (by omega)]
  unfold LV.mkFix
  congr 1
  omega

theorem idiv_ok (hx : LV.repr lang a = some x) (hy : LV.repr lang b = some y) (h : luaIdiv a b = some v) :
    Agrees lang v (rtBin arith .idiv x y) := by
  refine lift2 (g := luaIdiv) (rt := rtBin arith .idiv) (by num_kinds luaIdiv) ?_ ?_ hx hy h
  · intro m n v h1 h2 h
    simp only [luaIdiv, luaDiv] at h
    by_cases hn : n ≠ 0
    · rw [if_pos hn, divTrunc_eq, fixToSigned_eq h1, fixToSigned_eq h2] at h
      simp only [rtBin]
      rw [if_neg (by rw [n32_eq_zero h2]; exact hn)]
      by_cases hr : fixInRange (((BitVec.ofNat 32 m).toInt * 65536).tdiv (BitVec.ofNat 32 n).toInt) = true
      · rw [if_pos hr] at h
        simp only [floor_val, Option.some.injEq] at h
        subst h
        rw [fixInRange_iff] at hr
        rw [if_pos hr]
        exact ⟨_, repr_mkFix _, rfl⟩
      · rw [if_neg hr] at h; simp at h
    · rw [if_neg hn] at h; simp at h
  · intro m n v h1 h2 h
    simp only [luaIdiv] at h
    split at h
    · rename_i hn
      rw [Option.some.injEq] at h; subst h
      simp only [rtBin]
      rw [if_neg (by rw [n64_eq_zero h2]; exact hn), ofInt64_toInt h1, ofInt64_toInt h2]
      exact ⟨_, repr_mkInt _, rfl⟩
    · simp at h

theorem mod_ok (hx : LV.repr lang a = some x) (hy : LV.repr lang b = some y) (h : luaMod a b = some v) :
    Agrees lang v (rtBin arith .mod x y) := by
  refine lift2 (g := luaMod) (rt := rtBin arith .mod) (by num_kinds luaMod) ?_ ?_ hx hy h
  · intro m n v h1 h2 h
    simp only [luaMod] at h
    rw [fixIsNeg_eq h2] at h
    split at h
    · rename_i hn
      have hpos : 0 < (n32 n).toInt := by
        rw [← fixToSigned_eq h2, fixToSigned_cond h2]
        have := of_decide_eq_false hn.2
        rw [if_neg this]; omega
      rw [fixToSigned_eq h1, fixToSigned_eq h2, Int.fmod_eq_emod_of_nonneg _ (Int.le_of_lt hpos)] at h
      obtain ⟨w, w1, w2⟩ := fit_ok h
      refine ⟨w, w1, ?_⟩
      simp only [rtBin]
      rw [if_neg (by omega), ← w2]
      unfold fit32
      split
      · rfl
      · unfold fit32 at w2; rename_i hc; rw [if_neg hc] at w2; simp at w2
    · simp at h
  · intro m n v h1 h2 h
    simp only [luaMod] at h
    split at h
    · rename_i hn
      rw [Option.some.injEq] at h; subst h
      simp only [rtBin]
      rw [if_neg (by rw [n64_eq_zero h2]; exact hn), ofInt64_toInt h1, ofInt64_toInt h2]
      exact ⟨_, repr_mkInt _, rfl⟩
    · simp at h

theorem band_ok (hx : LV.repr lang a = some x) (hy : LV.repr lang b = some y) (h : luaBand a b = some v) :
    Agrees lang v (rtBin arith .band x y) := by
  refine lift2 (g := luaBand) (rt := rtBin arith .band) (by num_kinds luaBand) ?_ ?_ hx hy h
  · intro m n v _ _ h
    simp only [luaBand, Option.some.injEq] at h; subst h
    exact ⟨_, repr_mkFix _, by simp only [rtBin, BitVec.ofInt_natCast, BitVec.ofNat_and]⟩
  · intro m n v _ _ h
    simp only [luaBand, Option.some.injEq] at h; subst h
    exact ⟨_, repr_mkInt _, by simp only [rtBin, BitVec.ofInt_natCast, BitVec.ofNat_and, uintValue_val]⟩

theorem bor_ok (hx : LV.repr lang a = some x) (hy : LV.repr lang b = some y) (h : luaBor a b = some v) :
    Agrees lang v (rtBin arith .bor x y) := by
  refine lift2 (g := luaBor) (rt := rtBin arith .bor) (by num_kinds luaBor) ?_ ?_ hx hy h
  · intro m n v _ _ h
    simp only [luaBor, Option.some.injEq] at h; subst h
    exact ⟨_, repr_mkFix _, by simp only [rtBin, BitVec.ofInt_natCast, BitVec.ofNat_or]⟩
  · intro m n v _ _ h
    simp only [luaBor, Option.some.injEq] at h; subst h
    exact ⟨_, repr_mkInt _, by simp only [rtBin, BitVec.ofInt_natCast, BitVec.ofNat_or, uintValue_val]⟩

theorem bxor_ok (hx : LV.repr lang a = some x) (hy : LV.repr lang b = some y) (h : luaBxor a b = some v) :
    Agrees lang v (rtBin arith .bxor x y) := by
  refine lift2 (g := luaBxor) (rt := rtBin arith .bxor) (by num_kinds luaBxor) ?_ ?_ hx hy h
  · intro m n v _ _ h
    simp only [luaBxor, Option.some.injEq] at h; subst h
    exact ⟨_, repr_mkFix _, by simp only [rtBin, BitVec.ofInt_natCast, BitVec.ofNat_xor]⟩
  · intro m n v _ _ h
    simp only [luaBxor, Option.some.injEq] at h; subst h
    exact ⟨_, repr_mkInt _, by simp only [rtBin, BitVec.ofInt_natCast, BitVec.ofNat_xor, uintValue_val]⟩

/-! ### Comparisons -/

theorem strLt_eq (s t : List Nat) : strLt s t = decide (s < t) := by
  induction s generalizing t with
  | nil => cases t <;> simp [strLt]
  | cons a s ih =>
    cases t with
    | nil => simp [strLt]
    | cons b t =>
      simp only [strLt, ih, List.cons_lt_cons_iff]
      by_cases h : a < b
      · simp [h]
      · by_cases e : a = b
        · simp [e]
        · simp [h, e]

/-- Python's order of code points is the order of UTF-8 bytes, without escaped bytes. -/
def PlainText (s : List Nat) : Prop := ∀ c ∈ s, ¬ (0xdc80 ≤ c ∧ c ≤ 0xdcff)

theorem encodeCp_lt {c d : Nat} {x y : List Nat} (hc : ¬ (0xdc80 ≤ c ∧ c ≤ 0xdcff)) (hd : ¬ (0xdc80 ≤ d ∧ d ≤ 0xdcff))
    (ex : encodeCp c = some x) (ey : encodeCp d = some y) (h : c < d) (r t : List Nat) : x ++ r < y ++ t := by
  unfold encodeCp at ex ey
  repeat' split at ex
  all_goals (first | (simp at ex; done) | skip)
  all_goals repeat' split at ey
  all_goals (first | (simp at ey; done) | skip)
  all_goals first
    | omega
    | (simp only [Option.some.injEq] at ex ey
       subst ex; subst ey
       simp only [List.cons_append, List.nil_append, List.cons_lt_cons_iff]
       omega)

theorem encodeLuastr_cons {c : Nat} {s e : List Nat} (h : encodeLuastr (c :: s) = some e) :
    ∃ x r, encodeCp c = some x ∧ encodeLuastr s = some r ∧ e = x ++ r := by
  unfold encodeLuastr at h ⊢
  rw [List.mapM_cons] at h
  cases hc : encodeCp c with
  | none => simp [hc] at h
  | some x =>
    cases hs : s.mapM encodeCp with
    | none => simp [hc, hs] at h
    | some r =>
      simp [hc, hs] at h
      exact ⟨x, r.flatten, rfl, by simp, h.symm⟩

theorem encodeCp_ne_nil {c : Nat} {x : List Nat} (h : encodeCp c = some x) : x ≠ [] := by
  unfold encodeCp at h
  repeat' split at h
  all_goals (first | (simp at h; done) | (simp only [Option.some.injEq] at h; subst h; simp))

theorem PlainText.tail {c : Nat} {s : List Nat} (h : PlainText (c :: s)) : PlainText s := fun d hd => h d (List.mem_cons_of_mem _ hd)

theorem append_lt_append (x r t : List Nat) : x ++ r < x ++ t ↔ r < t := by
  induction x with
  | nil => rfl
  | cons a x ih => simp only [List.cons_append, List.cons_lt_cons_iff, ih]; simp

theorem encode_lt {s t es et : List Nat} (hs : PlainText s) (ht : PlainText t) (e1 : encodeLuastr s = some es)
    (e2 : encodeLuastr t = some et) : strLt s t = true ↔ es < et := by
  induction s generalizing t es et with
  | nil =>
    have : es = [] := by simpa [encodeLuastr] using e1.symm
    subst this
    cases t with
    | nil =>
      have : et = [] := by simpa [encodeLuastr] using e2.symm
      subst this; simp [strLt]
    | cons d t =>
      obtain ⟨x, r, h1, _, rfl⟩ := encodeLuastr_cons e2
      have := encodeCp_ne_nil h1
      cases x with
      | nil => contradiction
      | cons => simp [strLt]
  | cons c s ih =>
    obtain ⟨x, r, h1, h2, rfl⟩ := encodeLuastr_cons e1
    have hcx := encodeCp_ne_nil h1
    cases t with
    | nil =>
      have : et = [] := by simpa [encodeLuastr] using e2.symm
      subst this; simp [strLt]
    | cons d t =>
      obtain ⟨x', r', h1', h2', rfl⟩ := encodeLuastr_cons e2
      have hc := hs c (by simp)
      have hd := ht d (by simp)
      simp only [strLt]
      rcases Nat.lt_trichotomy c d with h | h | h
      · rw [if_pos h]
        simp only [true_iff]
        exact encodeCp_lt hc hd h1 h1' h _ _
      · subst h
        rw [h1] at h1'
        cases h1'
        rw [if_neg (by omega), if_pos rfl, ih hs.tail ht.tail h2 h2']
        exact (append_lt_append x r r').symm
      · rw [if_neg (by omega), if_neg (by omega)]
        simp only [Bool.false_eq_true, false_iff]
        have := encodeCp_lt hd hc h1' h1 h r' r
        exact List.lt_asymm this

theorem strLt_total {s t : List Nat} (h : s ≠ t) : strLt s t = true ∨ strLt t s = true := by
  induction s generalizing t with
  | nil => cases t with
    | nil => contradiction
    | cons => exact Or.inl rfl
  | cons a s ih => cases t with
    | nil => exact Or.inr rfl
    | cons b t =>
      simp only [strLt]
      rcases Nat.lt_trichotomy a b with h' | h' | h'
      · simp [h']
      · subst h'
        simpa using ih (by simpa using h)
      · simp [h']

theorem encode_inj {s t e : List Nat} (hs : PlainText s) (ht : PlainText t) (e1 : encodeLuastr s = some e)
    (e2 : encodeLuastr t = some e) : s = t := by
  by_cases h : s = t
  · exact h
  · exfalso
    rcases strLt_total h with h | h
    · exact List.lt_irrefl _ ((encode_lt hs ht e1 e2).mp h)
    · exact List.lt_irrefl _ ((encode_lt ht hs e2 e1).mp h)

/-- For Picotron, comparison of strings is only claimed when they contain no escaped bytes. -/
def CmpOk (lang : Lang) (a b : LV) : Prop :=
  lang = .picotron → ∀ s, (a = .str s ∨ b = .str s) → PlainText s

theorem signed_pico8 {n : Nat} (h : n < 2 ^ 32) : signedValue (.fix n) = some (n32 n).toInt := by
  simp only [signedValue]; rw [fixToSigned_eq h]

theorem signed_picotron {i : Int} (h : -2 ^ 63 ≤ i ∧ i < 2 ^ 63) : signedValue (.int i) = some (n64 i).toInt := by
  simp only [signedValue]; rw [ofInt64_toInt h]

/-- Everything the comparison operators need to know about two operands of which they are defined. -/
inductive CmpView (lang : Lang) (a b : LV) (x y : Val) : Prop
  | num (p q : Int) (h1 : signedValue a = some p) (h2 : signedValue b = some q) (h3 : less x y = some (decide (p < q)))
      (h4 : less y x = some (decide (q < p)))
  | str (s t : List Nat) (h1 : a = .str s) (h2 : b = .str t) (h3 : less x y = some (strLt s t)) (h4 : less y x = some (strLt t s))
  | bad (h1 : signedValue a = none ∨ signedValue b = none) (h2 : (∀ s, a ≠ .str s) ∨ (∀ s, b ≠ .str s))

theorem cmp_view (hx : LV.repr lang a = some x) (hy : LV.repr lang b = some y) (hc : CmpOk lang a b) : CmpView lang a b x y := by
  cases a with
  | nil => exact .bad (Or.inl rfl) (Or.inl (by simp))
  | bool => exact .bad (Or.inl rfl) (Or.inl (by simp))
  | fix m =>
    obtain ⟨rfl, h1, rfl⟩ := repr_fix_inv hx
    cases b with
    | fix n =>
      obtain ⟨_, h2, rfl⟩ := repr_fix_inv hy
      exact .num _ _ (signed_pico8 h1) (signed_pico8 h2) rfl rfl
    | int n => simp [LV.repr] at hy
    | nil => exact .bad (Or.inr rfl) (Or.inl (by simp))
    | bool => exact .bad (Or.inr rfl) (Or.inl (by simp))
    | str => exact .bad (Or.inr rfl) (Or.inl (by simp))
  | int m =>
    obtain ⟨rfl, h1, rfl⟩ := repr_int_inv hx
    cases b with
    | int n =>
      obtain ⟨_, h2, rfl⟩ := repr_int_inv hy
      exact .num _ _ (signed_picotron h1) (signed_picotron h2) rfl rfl
    | fix n => simp [LV.repr] at hy
    | nil => exact .bad (Or.inr rfl) (Or.inl (by simp))
    | bool => exact .bad (Or.inr rfl) (Or.inl (by simp))
    | str => exact .bad (Or.inr rfl) (Or.inl (by simp))
  | str s =>
    cases b with
    | str t =>
      cases lang with
      | pico8 =>
        simp only [LV.repr, Option.some.injEq] at hx hy
        subst hx; subst hy
        exact .str s t rfl rfl (by simp only [less, strLt_eq]) (by simp only [less, strLt_eq])
      | picotron =>
        simp only [LV.repr, Option.map_eq_some_iff] at hx hy
        obtain ⟨es, e1, rfl⟩ := hx
        obtain ⟨et, e2, rfl⟩ := hy
        have p1 := hc rfl s (Or.inl rfl)
        have p2 := hc rfl t (Or.inr rfl)
        refine .str s t rfl rfl ?_ ?_
        · simp only [less, Option.some.injEq]
          rw [Bool.eq_iff_iff, decide_eq_true_eq]; exact (encode_lt p1 p2 e1 e2).symm
        · simp only [less, Option.some.injEq]
          rw [Bool.eq_iff_iff, decide_eq_true_eq]; exact (encode_lt p2 p1 e2 e1).symm
    | nil => exact .bad (Or.inl rfl) (Or.inr (by simp))
    | bool => exact .bad (Or.inl rfl) (Or.inr (by simp))
    | fix => exact .bad (Or.inl rfl) (Or.inr (by simp))
    | int => exact .bad (Or.inl rfl) (Or.inr (by simp))

theorem agrees_bool (lang : Lang) (b : Bool) {o : Option Bool} (f : Bool → Val) (h : o.map f = some (.bool b)) :
    Agrees lang (.bool b) (o.map f) := ⟨_, rfl, h⟩

/-- Common form of the four comparison functions. -/
theorem cmp_ok (g : LV → LV → Option LV) (cn : Int → Int → Bool) (cs : List Nat → List Nat → Bool) (o : Option Bool) (f : Bool → Val)
    (hg : ∀ a b, g a b = match signedValue a, signedValue b, a, b with
      | some x, some y, _, _ => some (.bool (cn x y))
      | _, _, .str s, .str t => some (.bool (cs s t))
      | _, _, _, _ => none)
    (hn : ∀ p q, less x y = some (decide (p < q)) → less y x = some (decide (q < p)) → o.map f = some (.bool (cn p q)))
    (hs : ∀ s t, less x y = some (strLt s t) → less y x = some (strLt t s) → o.map f = some (.bool (cs s t)))
    (hx : LV.repr lang a = some x) (hy : LV.repr lang b = some y) (hc : CmpOk lang a b) (h : g a b = some v) :
    Agrees lang v (o.map f) := by
  rw [hg] at h
  cases cmp_view hx hy hc with
  | num p q h1 h2 h3 h4 =>
    rw [h1, h2] at h
    simp only [Option.some.injEq] at h
    subst h
    exact agrees_bool _ _ f (hn p q h3 h4)
  | str s t h1 h2 h3 h4 =>
    subst h1; subst h2
    simp only [signedValue, Option.some.injEq] at h
    subst h
    exact agrees_bool _ _ f (hs s t h3 h4)
  | bad h1 h2 =>
    split at h
    · rename_i e1 e2 _; rcases h1 with h1 | h1 <;> simp_all
    · rcases h2 with h2 | h2 <;> simp_all
    · simp at h

theorem lt_ok (hx : LV.repr lang a = some x) (hy : LV.repr lang b = some y) (hc : CmpOk lang a b) (h : luaLt a b = some v) :
    Agrees lang v (rtBin arith .lt x y) := by
  simp only [rtBin]
  refine cmp_ok luaLt (fun p q => decide (p < q)) strLt _ _ (fun a b => rfl) ?_ ?_ hx hy hc h
  · intro p q h1 h2; rw [h1]; rfl
  · intro p q h1 h2; rw [h1]; rfl

theorem gt_ok (hx : LV.repr lang a = some x) (hy : LV.repr lang b = some y) (hc : CmpOk lang a b) (h : luaGt a b = some v) :
    Agrees lang v (rtBin arith .gt x y) := by
  simp only [rtBin]
  refine cmp_ok luaGt (fun p q => decide (p > q)) (fun s t => strLt t s) _ _ (fun a b => rfl) ?_ ?_ hx hy hc h
  · intro p q h1 h2; rw [h2]; rfl
  · intro p q h1 h2; rw [h2]; rfl

theorem le_ok (hx : LV.repr lang a = some x) (hy : LV.repr lang b = some y) (hc : CmpOk lang a b) (h : luaLe a b = some v) :
    Agrees lang v (rtBin arith .le x y) := by
  simp only [rtBin]
  refine cmp_ok luaLe (fun p q => decide (p ≤ q)) (fun s t => !strLt t s) _ _ (fun a b => rfl) ?_ ?_ hx hy hc h
  · intro p q h1 h2; rw [h2]; simp; rw [Bool.eq_iff_iff]; simp
  · intro p q h1 h2; rw [h2]; rfl

theorem ge_ok (hx : LV.repr lang a = some x) (hy : LV.repr lang b = some y) (hc : CmpOk lang a b) (h : luaGe a b = some v) :
    Agrees lang v (rtBin arith .ge x y) := by
  simp only [rtBin]
  refine cmp_ok luaGe (fun p q => decide (p ≥ q)) (fun s t => !strLt s t) _ _ (fun a b => rfl) ?_ ?_ hx hy hc h
  · intro p q h1 h2; rw [h1]; simp; rw [Bool.eq_iff_iff]; simp
  · intro p q h1 h2; rw [h1]; rfl

theorem n32_inj {m n : Nat} (h1 : m < 2 ^ 32) (h2 : n < 2 ^ 32) : n32 m = n32 n ↔ m = n := by
  constructor
  · intro e
    have := congrArg BitVec.toNat e
    rwa [BitVec.toNat_ofNat, BitVec.toNat_ofNat, Nat.mod_eq_of_lt h1, Nat.mod_eq_of_lt h2] at this
  · rintro rfl; rfl

theorem n64_inj {m n : Int} (h1 : -2 ^ 63 ≤ m ∧ m < 2 ^ 63) (h2 : -2 ^ 63 ≤ n ∧ n < 2 ^ 63) : n64 m = n64 n ↔ m = n := by
  constructor
  · intro e
    have := congrArg BitVec.toInt e
    rwa [ofInt64_toInt h1, ofInt64_toInt h2] at this
  · rintro rfl; rfl

/-- Distinct constants stand for distinct values. -/
theorem repr_inj (hx : LV.repr lang a = some x) (hy : LV.repr lang b = some y) (hc : CmpOk lang a b) : x = y ↔ a = b := by
  constructor
  · rintro rfl
    cases a with
    | nil =>
      simp only [LV.repr, Option.some.injEq] at hx; subst hx
      cases b with
      | nil => rfl
      | bool => simp [LV.repr] at hy
      | fix => obtain ⟨_, _, e⟩ := repr_fix_inv hy; cases e
      | int => obtain ⟨_, _, e⟩ := repr_int_inv hy; cases e
      | str => cases lang <;> simp [LV.repr] at hy
    | bool =>
      simp only [LV.repr, Option.some.injEq] at hx; subst hx
      cases b with
      | nil => simp [LV.repr] at hy
      | bool => simpa [LV.repr] using hy.symm
      | fix => obtain ⟨_, _, e⟩ := repr_fix_inv hy; cases e
      | int => obtain ⟨_, _, e⟩ := repr_int_inv hy; cases e
      | str => cases lang <;> simp [LV.repr] at hy
    | fix m =>
      obtain ⟨rfl, h1, rfl⟩ := repr_fix_inv hx
      cases b with
      | nil => simp [LV.repr] at hy
      | bool => simp [LV.repr] at hy
      | fix => obtain ⟨_, h2, e⟩ := repr_fix_inv hy; rw [(n32_inj h1 h2).mp (Val.num.inj e)]
      | int => obtain ⟨_, _, e⟩ := repr_int_inv hy; cases e
      | str => simp [LV.repr] at hy
    | int m =>
      obtain ⟨rfl, h1, rfl⟩ := repr_int_inv hx
      cases b with
      | nil => simp [LV.repr] at hy
      | bool => simp [LV.repr] at hy
      | fix => obtain ⟨_, h2, e⟩ := repr_fix_inv hy; cases e
      | int => obtain ⟨_, h2, e⟩ := repr_int_inv hy; rw [(n64_inj h1 h2).mp (Val.int.inj e)]
      | str => simp [LV.repr] at hy
    | str s =>
      have hxs : ∃ e, x = .str e := by
        cases lang
        · exact ⟨s, by simpa [LV.repr] using hx.symm⟩
        · simp only [LV.repr, Option.map_eq_some_iff] at hx; obtain ⟨e, _, rfl⟩ := hx; exact ⟨e, rfl⟩
      obtain ⟨e, rfl⟩ := hxs
      cases b with
      | nil => simp [LV.repr] at hy
      | bool => simp [LV.repr] at hy
      | fix => obtain ⟨_, h2, e⟩ := repr_fix_inv hy; cases e
      | int => obtain ⟨_, h2, e⟩ := repr_int_inv hy; cases e
      | str t =>
        cases lang with
        | pico8 => simp only [LV.repr, Option.some.injEq, Val.str.injEq] at hx hy; rw [hx, hy]
        | picotron =>
          simp only [LV.repr, Option.map_eq_some_iff, Val.str.injEq, exists_eq_right] at hx hy
          rw [encode_inj (hc rfl s (Or.inl rfl)) (hc rfl t (Or.inr rfl)) hx hy]
  · rintro rfl
    rw [hx] at hy
    exact Option.some.inj hy

theorem eq_ok (hx : LV.repr lang a = some x) (hy : LV.repr lang b = some y) (hc : CmpOk lang a b) (h : luaEq a b = some v) :
    Agrees lang v (rtBin arith .eq x y) := by
  have hv : v = .bool (a == b) := by
    unfold luaEq at h
    split at h
    · obtain ⟨e, _⟩ := repr_fix_inv hx; obtain ⟨e', _⟩ := repr_int_inv hy; rw [e] at e'; cases e'
    · obtain ⟨e, _⟩ := repr_int_inv hx; obtain ⟨e', _⟩ := repr_fix_inv hy; rw [e] at e'; cases e'
    · simpa using h.symm
  subst hv
  refine ⟨_, rfl, ?_⟩
  simp only [rtBin, Option.some.injEq, Val.bool.injEq]
  rw [Bool.eq_iff_iff, decide_eq_true_eq, beq_iff_eq]
  exact repr_inj hx hy hc

theorem ne_ok (hx : LV.repr lang a = some x) (hy : LV.repr lang b = some y) (hc : CmpOk lang a b) (h : luaNe a b = some v) :
    Agrees lang v (rtBin arith .ne x y) := by
  have hv : v = .bool (a != b) := by
    unfold luaNe at h
    split at h
    · obtain ⟨e, _⟩ := repr_fix_inv hx; obtain ⟨e', _⟩ := repr_int_inv hy; rw [e] at e'; cases e'
    · obtain ⟨e, _⟩ := repr_int_inv hx; obtain ⟨e', _⟩ := repr_fix_inv hy; rw [e] at e'; cases e'
    · simpa using h.symm
  subst hv
  refine ⟨_, rfl, ?_⟩
  simp only [rtBin, Option.some.injEq, Val.bool.injEq]
  rw [Bool.eq_iff_iff, decide_eq_true_eq, bne_iff_ne]
  exact not_congr (repr_inj hx hy hc)

/-! ### Shifts and rotations -/

theorem count_pos {b : Nat} (h : b < 2 ^ 31) (hz : b % 65536 = 0) : count (n32 b) = some ((b / 65536 : Nat) : Int) := by
  unfold count
  have e : fixToSigned b = b := by rw [fixToSigned_cond (by omega), if_neg (by omega)]
  rw [← fixToSigned_eq (by omega), e, if_pos (by omega)]
  congr 1

theorem count_neg {b : Nat} (h : 2 ^ 31 ≤ b) (h2 : b < 2 ^ 32) (hz : b % 65536 = 0) :
    count (n32 b) = some (-(((2 ^ 32 - b) / 65536 : Nat) : Int)) := by
  unfold count
  have e : fixToSigned b = b - 2 ^ 32 := by rw [fixToSigned_cond (by omega), if_pos (by omega)]
  rw [← fixToSigned_eq (by omega), e, if_pos (by omega)]
  congr 1
  omega

/-- Without sign bit the two right shifts agree. -/
theorem sshiftRight_nonneg {a : Nat} (h : a < 2 ^ 31) (n : Nat) : (n32 a).sshiftRight n = n32 a >>> n := by
  apply BitVec.sshiftRight_eq_of_msb_false
  rw [BitVec.msb_eq_false_iff_two_mul_lt, BitVec.toNat_ofNat]
  omega

theorem shift8_ok {d : Nat} {f : ShiftFn} {m n : Nat} (h1 : m < 2 ^ 32) (h2 : n < 2 ^ 32)
    (h : luaShift d f (.fix m) (.fix n) = some (some v)) :
    Agrees .pico8 v (rtShift arith f (.num (n32 m)) (.num (n32 n))) := by
  obtain ⟨hz, hmin, hh⟩ := luaShift_inv h1 h2 h
  rcases hh with ⟨hp, rfl⟩ | ⟨hn, hf, rfl⟩
  · refine ⟨_, repr_mkFix _, ?_⟩
    rw [shift_val f h1]
    simp only [rtShift, count_pos hp hz, Option.map_some, Option.some.injEq, Val.num.injEq]
    generalize n / 65536 = k
    cases f
    · simp only [shl32]; rw [if_pos (by omega), Int.toNat_natCast]
    · simp only [shr32]; rw [if_pos (by omega), Int.toNat_natCast]
    · simp only [lshr32]; rw [if_pos (by omega), Int.toNat_natCast]
    · simp only [rotl32, BitVec.rotateLeft]; congr 1; omega
    · simp only [rotr32, BitVec.rotateRight]; congr 1; omega
  · refine ⟨_, repr_mkFix _, ?_⟩
    rw [shift_val _ h1]
    simp only [rtShift, count_neg (Nat.le_of_lt hn) h2 hz, Option.map_some, Option.some.injEq, Val.num.injEq]
    have hk : 0 < (2 ^ 32 - n) / 65536 := by omega
    generalize (2 ^ 32 - n) / 65536 = k at hk
    cases f
    · simp only [shl32, ShiftFn.flip]
      rw [if_neg (by omega), Int.neg_neg, Int.toNat_natCast]
      cases arith
      · rfl
      · exact sshiftRight_nonneg (hf rfl) k
    · simp only [shr32, ShiftFn.flip]
      rw [if_neg (by omega), Int.neg_neg, Int.toNat_natCast]
    · simp only [lshr32, ShiftFn.flip]
      rw [if_neg (by omega), Int.neg_neg, Int.toNat_natCast]
    · simp only [rotl32, ShiftFn.flip]; exact (rotateRight_neg _ _).symm
    · simp only [rotr32, ShiftFn.flip]; exact (rotateLeft_neg _ _).symm

theorem mkInt_neg {j : Int} (h : -2 ^ 63 < j ∧ j < 0) : LV.mkInt (-j) = .int (-j) := by
  unfold LV.mkInt; rw [toLuaInt_id (by omega) (by omega)]

theorem mkInt_min : LV.mkInt (- -2 ^ 63) = .int (-2 ^ 63) := by decide

theorem shift64_min (d : Nat) (f : ShiftFn) (i : Int) : luaShift d f (.int i) (.int (-2 ^ 63)) ≠ some (some v) := by
  induction d generalizing f with
  | zero => simp [luaShift]
  | succ d ih =>
    cases f <;> simp only [luaShift] <;> try (simp; done)
    · rw [if_pos (by decide), mkInt_min]; exact ih _
    · rw [if_pos (by decide), mkInt_min]; exact ih _

theorem shl64_val {i : Int} (k : Nat) :
    BitVec.ofNat 64 (uintValue i <<< min k 64) = n64 i <<< k := by
  apply BitVec.eq_of_toNat_eq
  rw [BitVec.toNat_ofNat, BitVec.toNat_shiftLeft, uintValue_toNat, Nat.shiftLeft_eq, Nat.shiftLeft_eq]
  by_cases h : k ≤ 64
  · rw [Nat.min_eq_left h]
  · rw [Nat.min_eq_right (by omega), show k = 64 + (k - 64) by omega, Nat.pow_add, ← Nat.mul_assoc, Nat.mul_right_comm]
    simp

theorem shr64_val {i : Int} (k : Nat) :
    BitVec.ofNat 64 (uintValue i >>> min k 64) = n64 i >>> k := by
  apply BitVec.eq_of_toNat_eq
  have hu := uintValue_lt i
  rw [BitVec.toNat_ofNat, BitVec.toNat_ushiftRight, uintValue_toNat, Nat.shiftRight_eq_div_pow, Nat.shiftRight_eq_div_pow]
  by_cases h : k ≤ 64
  · rw [Nat.min_eq_left h]
    exact Nat.mod_eq_of_lt (Nat.lt_of_le_of_lt (Nat.div_le_self _ _) hu)
  · rw [Nat.min_eq_right (by omega), Nat.div_eq_of_lt hu, Nat.div_eq_of_lt (Nat.lt_of_lt_of_le hu (Nat.pow_le_pow_right (by decide) (by omega)))]

theorem sshiftRight64_nonneg {i : Int} (h : 0 ≤ i ∧ i < 2 ^ 63) (n : Nat) : (n64 i).sshiftRight n = n64 i >>> n := by
  apply BitVec.sshiftRight_eq_of_msb_false
  rw [BitVec.msb_eq_false_iff_two_mul_lt, uintValue_toNat]
  unfold uintValue
  omega

theorem uintValue_nonneg {j : Int} (h : 0 ≤ j ∧ j < 2 ^ 63) : uintValue j = j.toNat := by unfold uintValue; omega

theorem shift64_ok {d : Nat} {f : ShiftFn} {i j : Int} (h1 : -2 ^ 63 ≤ i ∧ i < 2 ^ 63) (h2 : -2 ^ 63 ≤ j ∧ j < 2 ^ 63)
    (h : luaShift d f (.int i) (.int j) = some (some v)) :
    Agrees .picotron v (rtShift arith f (.int (n64 i)) (.int (n64 j))) := by
  have hmin : j ≠ -2 ^ 63 := by intro e; subst e; exact shift64_min _ _ _ h
  cases d with
  | zero => simp [luaShift] at h
  | succ d =>
  cases f with
  | shl =>
    simp only [luaShift] at h
    simp only [rtShift, shl64, ofInt64_toInt h2]
    by_cases hn : j < 0
    · rw [if_pos hn, mkInt_neg ⟨by omega, hn⟩] at h
      cases d with
      | zero => simp [luaShift] at h
      | succ d =>
        simp only [luaShift] at h
        rw [if_neg (by omega)] at h
        split at h
        · simp only [Option.some.injEq] at h; subst h
          refine ⟨_, repr_mkInt _, ?_⟩
          rw [BitVec.ofInt_natCast, shr64_val, if_neg (by omega), uintValue_nonneg ⟨by omega, by omega⟩]
        · simp at h
    · rw [if_neg hn] at h
      simp only [Option.some.injEq] at h; subst h
      refine ⟨_, repr_mkInt _, ?_⟩
      rw [BitVec.ofInt_natCast, shl64_val, if_pos (by omega), uintValue_nonneg ⟨by omega, by omega⟩]
  | shr =>
    simp only [luaShift] at h
    simp only [rtShift, shr64, ofInt64_toInt h2]
    by_cases hn : j < 0
    · rw [if_pos hn, mkInt_neg ⟨by omega, hn⟩] at h
      cases d with
      | zero => simp [luaShift] at h
      | succ d =>
        simp only [luaShift] at h
        rw [if_neg (by omega)] at h
        simp only [Option.some.injEq] at h; subst h
        refine ⟨_, repr_mkInt _, ?_⟩
        rw [BitVec.ofInt_natCast, shl64_val, if_neg (by omega), uintValue_nonneg ⟨by omega, by omega⟩]
    · rw [if_neg hn] at h
      split at h
      · simp only [Option.some.injEq] at h; subst h
        refine ⟨_, repr_mkInt _, ?_⟩
        rw [BitVec.ofInt_natCast, shr64_val, if_pos (by omega), uintValue_nonneg ⟨by omega, by omega⟩]
        cases arith
        · rfl
        · simp only [if_true]; rw [sshiftRight64_nonneg ⟨by omega, h1.2⟩]
      · simp at h
  | lshr => simp [luaShift] at h
  | rotl => simp [luaShift] at h
  | rotr => simp [luaShift] at h

theorem shift_ok {d : Nat} {f : ShiftFn} (hx : LV.repr lang a = some x) (hy : LV.repr lang b = some y)
    (h : luaShift d f a b = some (some v)) : Agrees lang v (rtShift arith f x y) := by
  have hg : (fun a b => (luaShift d f a b).join) a b = some v := by simp [h]
  refine lift2 (g := fun a b => (luaShift d f a b).join) (rt := rtShift arith f) ?_ ?_ ?_ hx hy hg
  · apply num_inv; intro a b
    cases a <;> cases b <;> first
      | exact Or.inl ⟨_, _, rfl, rfl⟩
      | exact Or.inr (Or.inl ⟨_, _, rfl, rfl⟩)
      | exact Or.inr (Or.inr (by cases d <;> cases f <;> simp [luaShift]))
  · intro m n v h1 h2 h
    exact shift8_ok h1 h2 (by simpa [Option.join_eq_some_iff] using h)
  · intro m n v h1 h2 h
    exact shift64_ok h1 h2 (by simpa [Option.join_eq_some_iff] using h)

/-! ### Concatenation -/

theorem encodeLuastr_append {s t es et : List Nat} (h1 : encodeLuastr s = some es) (h2 : encodeLuastr t = some et) :
    encodeLuastr (s ++ t) = some (es ++ et) := by
  induction s generalizing es with
  | nil =>
    have : es = [] := by simpa [encodeLuastr] using h1.symm
    subst this; exact h2
  | cons c s ih =>
    obtain ⟨x, r, hc, hr, rfl⟩ := encodeLuastr_cons h1
    have := ih hr
    unfold encodeLuastr at this ⊢
    simp only [List.cons_append, List.mapM_cons, hc, Option.pure_def, Option.bind_eq_bind, Option.bind_some]
    cases hm : (s ++ t).mapM encodeCp with
    | none => rw [hm] at this; simp at this
    | some q => rw [hm] at this; simp only [Option.map_some, Option.some.injEq] at this; simp [this]

theorem encode_ascii {t : List Nat} (h : ∀ c ∈ t, c < 128) : encodeLuastr t = some t := by
  induction t with
  | nil => rfl
  | cons c t ih =>
    have h1 := ih fun d hd => h d (List.mem_cons_of_mem _ hd)
    have h2 := h c (by simp)
    have : encodeCp c = some [c] := by unfold encodeCp; rw [if_pos (by omega)]
    exact encodeLuastr_append (s := [c]) (t := t) (es := [c]) (by simp [encodeLuastr, this]) h1

theorem decText_ascii (i : Int) : ∀ c ∈ decText i, c < 128 := by
  intro c hc
  rcases Int.lt_or_le i 0 with h | h
  · obtain ⟨n, hn⟩ : ∃ n : Nat, i = -(n : Int) := ⟨(-i).toNat, by omega⟩
    rw [hn, decText_neg (by omega)] at hc
    rcases List.mem_cons.mp hc with h | h
    · omega
    · have := natDigits_digit n c h; omega
  · obtain ⟨n, hn⟩ : ∃ n : Nat, i = (n : Int) := ⟨i.toNat, by omega⟩
    rw [hn, decText_nonneg] at hc
    have := natDigits_digit n c hc; omega

theorem tostr_ok {t : List Nat} (hx : LV.repr lang a = some x) (h : luaTostr a = some (some t)) :
    ∃ e, LV.repr lang (.str t) = some (.str e) ∧ tostr x = some e := by
  cases a with
  | nil => simp [luaTostr] at h
  | bool => simp [luaTostr] at h
  | fix m =>
    obtain ⟨rfl, h1, rfl⟩ := repr_fix_inv hx
    exact ⟨t, rfl, luaTostr_fix h1 h⟩
  | int i =>
    obtain ⟨rfl, h1, rfl⟩ := repr_int_inv hx
    rw [luaTostr_int h1] at h
    simp only [Option.some.injEq] at h
    subst h
    refine ⟨_, by simp only [LV.repr, encode_ascii (decText_ascii i)]; rfl, ?_⟩
    simp only [tostr]; rw [ofInt64_toInt h1]
  | str s =>
    simp only [luaTostr, Option.some.injEq] at h
    subst h
    cases lang with
    | pico8 => simp only [LV.repr, Option.some.injEq] at hx; subst hx; exact ⟨s, rfl, rfl⟩
    | picotron =>
      simp only [LV.repr, Option.map_eq_some_iff] at hx
      obtain ⟨e, he, rfl⟩ := hx
      exact ⟨e, by simp only [LV.repr, he]; rfl, rfl⟩

theorem cat_ok (hx : LV.repr lang a = some x) (hy : LV.repr lang b = some y) (h : luaCat a b = some (some v)) :
    Agrees lang v (rtBin arith .cat x y) := by
  unfold luaCat at h
  split at h
  · rename_i s t h1 h2
    simp only [Option.some.injEq] at h; subst h
    obtain ⟨es, e1, e2⟩ := tostr_ok hx h1
    obtain ⟨et, f1, f2⟩ := tostr_ok hy h2
    refine ⟨.str (es ++ et), ?_, by simp only [rtBin, e2, f2]⟩
    cases lang with
    | pico8 => simp only [LV.repr, Option.some.injEq, Val.str.injEq] at e1 f1 ⊢; rw [e1, f1]
    | picotron =>
      simp only [LV.repr, Option.map_eq_some_iff, Val.str.injEq, exists_eq_right] at e1 f1 ⊢
      exact encodeLuastr_append e1 f1
  · simp at h
  · simp at h

/-! ### Unary operators and builtins -/

theorem neg_ok (hx : LV.repr lang a = some x) (h : luaNeg a = some v) : Agrees lang v (rtUn lang .neg x) := by
  cases a <;> simp only [luaNeg, Option.some.injEq, reduceCtorEq] at h
  · obtain ⟨rfl, h1, rfl⟩ := repr_fix_inv hx; subst h
    exact ⟨_, repr_mkFix _, by simp only [rtUn, BitVec.ofInt_neg, BitVec.ofInt_natCast]⟩
  · obtain ⟨rfl, h1, rfl⟩ := repr_int_inv hx; subst h
    exact ⟨_, repr_mkInt _, by simp only [rtUn, BitVec.ofInt_neg]⟩

theorem not_eq (w : Nat) (x : BitVec w) : -x - 1 = ~~~x := by
  rw [BitVec.neg_eq_not_add]; exact BitVec.add_sub_cancel _ _

theorem bnot_ok (hx : LV.repr lang a = some x) (h : luaBnot a = some v) : Agrees lang v (rtUn lang .bnot x) := by
  cases a <;> simp only [luaBnot, Option.some.injEq, reduceCtorEq] at h
  · obtain ⟨rfl, h1, rfl⟩ := repr_fix_inv hx; subst h
    exact ⟨_, repr_mkFix _, by simp only [rtUn, ofInt_sub, BitVec.ofInt_neg, BitVec.ofInt_natCast, ← not_eq]; rfl⟩
  · obtain ⟨rfl, h1, rfl⟩ := repr_int_inv hx; subst h
    exact ⟨_, repr_mkInt _, by simp only [rtUn, ofInt_sub, BitVec.ofInt_neg, BitVec.ofInt_natCast, uintValue_val, ← not_eq]; rfl⟩

theorem not_ok (hx : LV.repr lang a = some x) : Agrees lang (luaNot a) (rtUn lang .not x) := by
  refine ⟨.bool (!x.truthy), ?_, by cases x <;> rfl⟩
  unfold luaNot; rw [repr_truthy hx]; rfl

theorem len_ok (hx : LV.repr lang a = some x) (h : luaLen lang a = some (some v)) : Agrees lang v (rtUn lang .len x) := by
  cases a <;> simp only [luaLen, Option.some.injEq, reduceCtorEq] at h
  rename_i s
  cases lang with
  | pico8 =>
    simp only [LV.repr, Option.some.injEq] at hx; subst hx
    simp only at h
    split at h
    · simp only [Option.some.injEq] at h; subst h
      refine ⟨_, repr_mkFix _, ?_⟩
      simp only [rtUn, fit32]
      rw [if_pos (by omega), Nat.shiftLeft_eq]
      rw [show ((s.length * 2 ^ 16 : Nat) : Int) = s.length * 65536 by omega]
    · simp at h
  | picotron =>
    simp only [LV.repr, Option.map_eq_some_iff] at hx
    obtain ⟨e, he, rfl⟩ := hx
    simp only [he, Option.map_some, Option.some.injEq] at h
    subst h
    exact ⟨_, repr_mkInt _, by simp only [rtUn, BitVec.ofInt_natCast]⟩

theorem un_ok (op : UnOp) (hx : LV.repr lang a = some x) (h : foldUn lang op a = some (some v)) : Agrees lang v (rtUn lang op x) := by
  cases op <;> simp only [foldUn, Option.some.injEq] at h
  · exact neg_ok hx h
  · exact bnot_ok hx h
  · subst h; exact not_ok hx
  · exact len_ok hx h

theorem bin_ok {d : Nat} (op : BinOp) (hx : LV.repr lang a = some x) (hy : LV.repr lang b = some y)
    (hc : op ∈ [BinOp.eq, .ne, .lt, .le, .gt, .ge] → CmpOk lang a b)
    (h : foldBin d op a b = some (some v)) : Agrees lang v (rtBin arith op x y) := by
  cases op <;> simp only [foldBin, Option.some.injEq, reduceCtorEq] at h
  · subst h; simp only [rtBin, ← repr_truthy hx]
    split
    · exact ⟨x, hx, rfl⟩
    · exact ⟨y, hy, rfl⟩
  · subst h; simp only [rtBin, ← repr_truthy hx]
    split
    · exact ⟨y, hy, rfl⟩
    · exact ⟨x, hx, rfl⟩
  · exact ne_ok hx hy (hc (by decide)) h
  · exact eq_ok hx hy (hc (by decide)) h
  · exact lt_ok hx hy (hc (by decide)) h
  · exact le_ok hx hy (hc (by decide)) h
  · exact gt_ok hx hy (hc (by decide)) h
  · exact ge_ok hx hy (hc (by decide)) h
  · exact bor_ok hx hy h
  · exact bxor_ok hx hy h
  · exact band_ok hx hy h
  · exact shift_ok (arith := arith) hx hy h
  · exact shift_ok (arith := arith) hx hy h
  · exact shift_ok (arith := arith) hx hy h
  · exact shift_ok (arith := arith) hx hy h
  · exact shift_ok (arith := arith) hx hy h
  · exact cat_ok hx hy h
  · exact add_ok hx hy h
  · exact sub_ok hx hy h
  · exact mul_ok hx hy h
  · exact div_ok hx hy h
  · exact idiv_ok hx hy h
  · exact mod_ok hx hy h

theorem signed_cases {m : Nat} (h : m < 2 ^ 32) : ∃ i : Int, fixToSigned m = i ∧ (n32 m).toInt = i ∧
    ((2 ^ 31 ≤ m ∧ i = m - 2 ^ 32) ∨ (m < 2 ^ 31 ∧ i = m)) := by
  refine ⟨_, rfl, (fixToSigned_eq h).symm, ?_⟩
  rw [fixToSigned_cond h]
  split
  · rename_i hc; exact Or.inl ⟨hc, rfl⟩
  · rename_i hc; exact Or.inr ⟨Nat.lt_of_not_le hc, rfl⟩

theorem rt_abs32 (x : BitVec 32) : rtCall arith .abs [.num x] = fit32 x.toInt.natAbs := rfl
theorem rt_abs64 (x : BitVec 64) : rtCall arith .abs [.int x] =
    if (x.toInt.natAbs : Int) < 2 ^ 63 then some (.int (BitVec.ofInt 64 x.toInt.natAbs)) else none := rfl
theorem rt_flr32 (x : BitVec 32) : rtCall arith .flr [.num x] = fit32 (x.toInt / 65536 * 65536) := rfl
theorem rt_flr64 (x : BitVec 64) : rtCall arith .flr [.int x] = some (.int x) := rfl
theorem rt_ceil32 (x : BitVec 32) : rtCall arith .ceil [.num x] = fit32 (-(-x.toInt / 65536) * 65536) := rfl
theorem rt_ceil64 (x : BitVec 64) : rtCall arith .ceil [.int x] = some (.int x) := rfl
theorem rt_max32 (x y : BitVec 32) : rtCall arith .max [.num x, .num y] = some (.num (BitVec.ofInt 32 (max x.toInt y.toInt))) := rfl
theorem rt_max64 (x y : BitVec 64) : rtCall arith .max [.int x, .int y] = some (.int (BitVec.ofInt 64 (max x.toInt y.toInt))) := rfl
theorem rt_min32 (x y : BitVec 32) : rtCall arith .min [.num x, .num y] = some (.num (BitVec.ofInt 32 (min x.toInt y.toInt))) := rfl
theorem rt_min64 (x y : BitVec 64) : rtCall arith .min [.int x, .int y] = some (.int (BitVec.ofInt 64 (min x.toInt y.toInt))) := rfl
theorem rt_mid32 (x y z : BitVec 32) : rtCall arith .mid [.num x, .num y, .num z] =
    some (.num (BitVec.ofInt 32 (median x.toInt y.toInt z.toInt))) := rfl
theorem rt_mid64 (x y z : BitVec 64) : rtCall arith .mid [.int x, .int y, .int z] =
    some (.int (BitVec.ofInt 64 (median x.toInt y.toInt z.toInt))) := rfl

theorem abs_ok (hx : LV.repr lang a = some x) (h : luaAbs a = some v) : Agrees lang v (rtCall arith .abs [x]) := by
  cases a <;> simp only [luaAbs, reduceCtorEq] at h
  · rename_i m
    obtain ⟨rfl, h1, rfl⟩ := repr_fix_inv hx
    obtain ⟨i, e1, e2, h2⟩ := signed_cases h1
    split at h
    · rename_i hm
      simp only [Option.some.injEq] at h; subst h
      refine ⟨_, repr_mkFix _, ?_⟩
      simp only [rt_abs32, fit32]
      rw [e1, e2, if_pos (by omega)]
    · simp at h
  · obtain ⟨rfl, h1, rfl⟩ := repr_int_inv hx
    split at h
    · simp only [Option.some.injEq] at h; subst h
      refine ⟨_, repr_mkInt _, ?_⟩
      simp only [rt_abs64]
      rw [ofInt64_toInt h1, if_pos (by omega)]
    · simp at h

theorem ofInt32_congr {p q : Int} (h : p % 2 ^ 32 = q % 2 ^ 32) : BitVec.ofInt 32 p = BitVec.ofInt 32 q := by
  apply BitVec.eq_of_toNat_eq
  rw [BitVec.toNat_ofInt, BitVec.toNat_ofInt]
  exact congrArg Int.toNat h

theorem flr_ok (hx : LV.repr lang a = some x) (h : luaFloor a = some v) : Agrees lang v (rtCall arith .flr [x]) := by
  cases a <;> simp only [luaFloor, reduceCtorEq, Option.some.injEq] at h
  · rename_i m
    obtain ⟨rfl, h1, rfl⟩ := repr_fix_inv hx
    obtain ⟨i, e1, e2, h2⟩ := signed_cases h1
    rw [and_high16 h1] at h
    subst h
    refine ⟨_, repr_mkFix _, ?_⟩
    simp only [rt_flr32, fit32]
    rw [e2, if_pos (by omega)]
    exact congrArg _ (congrArg _ (ofInt32_congr (by omega)))
  · obtain ⟨rfl, h1, rfl⟩ := repr_int_inv hx
    subst h
    exact ⟨_, hx, rfl⟩

theorem ceil_ok (hx : LV.repr lang a = some x) (h : luaCeil a = some v) : Agrees lang v (rtCall arith .ceil [x]) := by
  cases a <;> simp only [luaCeil, reduceCtorEq, Option.some.injEq] at h
  · rename_i m
    obtain ⟨rfl, h1, rfl⟩ := repr_fix_inv hx
    obtain ⟨i, e1, e2, h2⟩ := signed_cases h1
    have hl : m &&& 0xffff = m % 65536 := and_low16 m
    rw [and_high16 h1, hl] at h
    simp only [rt_ceil32, fit32]
    rw [e2]
    split at h
    · split at h
      · simp at h
      · simp only [Option.some.injEq] at h; subst h
        refine ⟨_, repr_mkFix _, ?_⟩
        rw [if_pos (by omega)]
        exact congrArg _ (congrArg _ (ofInt32_congr (by omega)))
    · simp only [Option.some.injEq] at h; subst h
      refine ⟨_, repr_mkFix _, ?_⟩
      rw [if_pos (by omega)]
      exact congrArg _ (congrArg _ (ofInt32_congr (by omega)))
  · obtain ⟨rfl, h1, rfl⟩ := repr_int_inv hx
    subst h
    exact ⟨_, hx, rfl⟩

/-- A number with its kind and its value. -/
theorem signed_inv {p : Int} (hx : LV.repr lang a = some x) (h : signedValue a = some p) :
    (lang = .pico8 ∧ ∃ z : BitVec 32, x = .num z ∧ z.toInt = p) ∨ (lang = .picotron ∧ ∃ z : BitVec 64, x = .int z ∧ z.toInt = p) := by
  cases a <;> simp only [signedValue, reduceCtorEq, Option.some.injEq] at h
  · obtain ⟨rfl, h1, rfl⟩ := repr_fix_inv hx
    exact Or.inl ⟨rfl, _, rfl, by rw [← h, fixToSigned_eq h1]⟩
  · obtain ⟨rfl, h1, rfl⟩ := repr_int_inv hx
    exact Or.inr ⟨rfl, _, rfl, by rw [← h, ofInt64_toInt h1]⟩

theorem max_ok (hx : LV.repr lang a = some x) (hy : LV.repr lang b = some y) (h : luaMax a b = some v) :
    Agrees lang v (rtCall arith .max [x, y]) := by
  unfold luaMax at h
  split at h
  · rename_i p q e1 e2
    simp only [Option.some.injEq] at h; subst h
    rcases signed_inv hx e1 with ⟨rfl, z, rfl, hz⟩ | ⟨rfl, z, rfl, hz⟩ <;> rcases signed_inv hy e2 with ⟨hl, w, rfl, hw⟩ | ⟨hl, w, rfl, hw⟩ <;> try cases hl
    · simp only [rt_max32, hz, hw]
      split
      · exact ⟨_, hx, by rw [Int.max_eq_left (by omega), ← hz, BitVec.ofInt_toInt]⟩
      · exact ⟨_, hy, by rw [Int.max_eq_right (by omega), ← hw, BitVec.ofInt_toInt]⟩
    · simp only [rt_max64, hz, hw]
      split
      · exact ⟨_, hx, by rw [Int.max_eq_left (by omega), ← hz, BitVec.ofInt_toInt]⟩
      · exact ⟨_, hy, by rw [Int.max_eq_right (by omega), ← hw, BitVec.ofInt_toInt]⟩
  · simp at h

theorem min_ok (hx : LV.repr lang a = some x) (hy : LV.repr lang b = some y) (h : luaMin a b = some v) :
    Agrees lang v (rtCall arith .min [x, y]) := by
  unfold luaMin at h
  split at h
  · rename_i p q e1 e2
    simp only [Option.some.injEq] at h; subst h
    rcases signed_inv hx e1 with ⟨rfl, z, rfl, hz⟩ | ⟨rfl, z, rfl, hz⟩ <;> rcases signed_inv hy e2 with ⟨hl, w, rfl, hw⟩ | ⟨hl, w, rfl, hw⟩ <;> try cases hl
    · simp only [rt_min32, hz, hw]
      split
      · exact ⟨_, hx, by rw [Int.min_eq_left (by omega), ← hz, BitVec.ofInt_toInt]⟩
      · exact ⟨_, hy, by rw [Int.min_eq_right (by omega), ← hw, BitVec.ofInt_toInt]⟩
    · simp only [rt_min64, hz, hw]
      split
      · exact ⟨_, hx, by rw [Int.min_eq_left (by omega), ← hz, BitVec.ofInt_toInt]⟩
      · exact ⟨_, hy, by rw [Int.min_eq_right (by omega), ← hw, BitVec.ofInt_toInt]⟩
  · simp at h

theorem median_cases (p q r : Int) :
    (decide (p < q) = decide (q < r) → median p q r = q) ∧
    (decide (p < q) ≠ decide (q < r) → decide (p < q) ≠ decide (p < r) → median p q r = p) ∧
    (decide (p < q) ≠ decide (q < r) → decide (p < q) = decide (p < r) → median p q r = r) := by
  unfold median
  by_cases h1 : p < q <;> by_cases h2 : q < r <;> by_cases h3 : p < r <;> simp [h1, h2, h3] <;> omega

theorem mid_ok {c : LV} {z : Val} (hx : LV.repr lang a = some x) (hy : LV.repr lang b = some y) (hz : LV.repr lang c = some z)
    (h : luaMid a b c = some v) : Agrees lang v (rtCall arith .mid [x, y, z]) := by
  unfold luaMid at h
  split at h
  · rename_i p q r e1 e2 e3
    simp only [Option.some.injEq] at h; subst h
    obtain ⟨m1, m2, m3⟩ := median_cases p q r
    rcases signed_inv hx e1 with ⟨rfl, x, rfl, vx⟩ | ⟨rfl, x, rfl, vx⟩ <;>
      rcases signed_inv hy e2 with ⟨hl, y, rfl, vy⟩ | ⟨hl, y, rfl, vy⟩ <;> (try cases hl) <;>
      rcases signed_inv hz e3 with ⟨hl, z, rfl, vz⟩ | ⟨hl, z, rfl, vz⟩ <;> (try cases hl) <;>
      simp only [rt_mid32, rt_mid64, vx, vy, vz] <;> split
    · rename_i h1; exact ⟨_, hy, by rw [m1 h1, ← vy, BitVec.ofInt_toInt]⟩
    · rename_i h1; split
      · rename_i h2; exact ⟨_, hx, by rw [m2 h1 h2, ← vx, BitVec.ofInt_toInt]⟩
      · rename_i h2; exact ⟨_, hz, by rw [m3 h1 (by simpa using h2), ← vz, BitVec.ofInt_toInt]⟩
    · rename_i h1; exact ⟨_, hy, by rw [m1 h1, ← vy, BitVec.ofInt_toInt]⟩
    · rename_i h1; split
      · rename_i h2; exact ⟨_, hx, by rw [m2 h1 h2, ← vx, BitVec.ofInt_toInt]⟩
      · rename_i h2; exact ⟨_, hz, by rw [m3 h1 (by simpa using h2), ← vz, BitVec.ofInt_toInt]⟩
  · simp at h

/-- In PICO-8 no value is a 64-bit integer. -/
theorem repr8_not_int (hx : LV.repr .pico8 a = some x) (z : BitVec 64) : x ≠ .int z := by
  cases a <;> simp [LV.repr] at hx
  · subst hx; simp
  · subst hx; simp
  · obtain ⟨_, rfl⟩ := hx; simp
  · subst hx; simp

theorem agrees_call {w : Option Val} {rt : Option Val} (h : Agrees lang v w) (hw : ∀ z, w = some z → rt = some z) : Agrees lang v rt := by
  obtain ⟨z, h1, h2⟩ := h
  exact ⟨z, h1, hw z h2⟩

theorem band_call {z : Val} (nx : ∀ z, x ≠ .int z) (h : rtBin arith .band x y = some z) : rtCall arith .band [x, y] = some z := by
  cases x <;> cases y <;> first | exact h | exact absurd rfl (nx _) | (cases h)
theorem bor_call {z : Val} (nx : ∀ z, x ≠ .int z) (h : rtBin arith .bor x y = some z) : rtCall arith .bor [x, y] = some z := by
  cases x <;> cases y <;> first | exact h | exact absurd rfl (nx _) | (cases h)
theorem bxor_call {z : Val} (nx : ∀ z, x ≠ .int z) (h : rtBin arith .bxor x y = some z) : rtCall arith .bxor [x, y] = some z := by
  cases x <;> cases y <;> first | exact h | exact absurd rfl (nx _) | (cases h)
theorem bnot_call {z : Val} (nx : ∀ z, x ≠ .int z) (h : rtUn .pico8 .bnot x = some z) : rtCall arith .bnot [x] = some z := by
  cases x <;> first | exact h | exact absurd rfl (nx _) | (cases h)

theorem shl_call {z : Val} (nx : ∀ z, x ≠ .int z) (h : rtShift arith .shl x y = some z) : rtCall arith .shl [x, y] = some z := by
  cases x <;> cases y <;> first | exact h | exact absurd rfl (nx _) | (cases h)
theorem shr_call {z : Val} (nx : ∀ z, x ≠ .int z) (h : rtShift arith .shr x y = some z) : rtCall arith .shr [x, y] = some z := by
  cases x <;> cases y <;> first | exact h | exact absurd rfl (nx _) | (cases h)
theorem lshr_call {z : Val} (nx : ∀ z, x ≠ .int z) (h : rtShift arith .lshr x y = some z) : rtCall arith .lshr [x, y] = some z := by
  cases x <;> cases y <;> first | exact h | exact absurd rfl (nx _) | (cases h)
theorem rotl_call {z : Val} (nx : ∀ z, x ≠ .int z) (h : rtShift arith .rotl x y = some z) : rtCall arith .rotl [x, y] = some z := by
  cases x <;> cases y <;> first | exact h | exact absurd rfl (nx _) | (cases h)
theorem rotr_call {z : Val} (nx : ∀ z, x ≠ .int z) (h : rtShift arith .rotr x y = some z) : rtCall arith .rotr [x, y] = some z := by
  cases x <;> cases y <;> first | exact h | exact absurd rfl (nx _) | (cases h)

theorem call_ok {d : Nat} {args : List LV} {xs : List Val} (f : Builtin) (hxs : args.mapM (LV.repr lang) = some xs)
    (h : foldCall lang d f args = some (some v)) : Agrees lang v (rtCall arith f xs) := by
  match args with
  | [] => cases f <;> cases lang <;> cases h
  | [a] =>
    obtain ⟨x, hx, rfl⟩ : ∃ x, LV.repr lang a = some x ∧ xs = [x] := by
      cases e : LV.repr lang a with
      | none => simp [e] at hxs
      | some x => exact ⟨x, rfl, by simpa [e] using hxs.symm⟩
    cases f with
    | abs => exact abs_ok hx (Option.some.inj h)
    | flr => exact flr_ok hx (Option.some.inj h)
    | ceil => exact ceil_ok hx (Option.some.inj h)
    | bnot =>
      cases lang with
      | pico8 => exact agrees_call (bnot_ok hx (Option.some.inj h)) fun z => bnot_call (repr8_not_int hx)
      | picotron => cases h
    | _ => cases lang <;> cases h
  | [a, b] =>
    obtain ⟨x, y, hx, hy, rfl⟩ : ∃ x y, LV.repr lang a = some x ∧ LV.repr lang b = some y ∧ xs = [x, y] := by
      cases e : LV.repr lang a with
      | none => simp [e] at hxs
      | some x =>
        cases e' : LV.repr lang b with
        | none => simp [e, e'] at hxs
        | some y => exact ⟨x, y, rfl, rfl, by simpa [e, e'] using hxs.symm⟩
    cases f with
    | max => exact max_ok hx hy (Option.some.inj h)
    | min => exact min_ok hx hy (Option.some.inj h)
    | abs | flr | ceil | bnot | mid => cases lang <;> cases h
    | band =>
      cases lang with
      | pico8 => exact agrees_call (band_ok (arith := arith) hx hy (Option.some.inj h)) fun z => band_call (repr8_not_int hx)
      | picotron => cases h
    | bor =>
      cases lang with
      | pico8 => exact agrees_call (bor_ok (arith := arith) hx hy (Option.some.inj h)) fun z => bor_call (repr8_not_int hx)
      | picotron => cases h
    | bxor =>
      cases lang with
      | pico8 => exact agrees_call (bxor_ok (arith := arith) hx hy (Option.some.inj h)) fun z => bxor_call (repr8_not_int hx)
      | picotron => cases h
    | shl =>
      cases lang with
      | pico8 => exact agrees_call (shift_ok (arith := arith) (f := .shl) (d := d) hx hy h) fun z => shl_call (repr8_not_int hx)
      | picotron => cases h
    | shr =>
      cases lang with
      | pico8 => exact agrees_call (shift_ok (arith := arith) (f := .shr) (d := d) hx hy h) fun z => shr_call (repr8_not_int hx)
      | picotron => cases h
    | lshr =>
      cases lang with
      | pico8 => exact agrees_call (shift_ok (arith := arith) (f := .lshr) (d := d) hx hy h) fun z => lshr_call (repr8_not_int hx)
      | picotron => cases h
    | rotl =>
      cases lang with
      | pico8 => exact agrees_call (shift_ok (arith := arith) (f := .rotl) (d := d) hx hy h) fun z => rotl_call (repr8_not_int hx)
      | picotron => cases h
    | rotr =>
      cases lang with
      | pico8 => exact agrees_call (shift_ok (arith := arith) (f := .rotr) (d := d) hx hy h) fun z => rotr_call (repr8_not_int hx)
      | picotron => cases h
  | [a, b, c] =>
    obtain ⟨x, y, z, hx, hy, hz, rfl⟩ : ∃ x y z, LV.repr lang a = some x ∧ LV.repr lang b = some y ∧ LV.repr lang c = some z ∧ xs = [x, y, z] := by
      cases e : LV.repr lang a with
      | none => simp [e] at hxs
      | some x =>
        cases e' : LV.repr lang b with
        | none => simp [e, e'] at hxs
        | some y =>
          cases e'' : LV.repr lang c with
          | none => simp [e, e', e''] at hxs
          | some z => exact ⟨x, y, z, rfl, rfl, rfl, by simpa [e, e', e''] using hxs.symm⟩
    cases f with
    | mid => exact mid_ok hx hy hz (Option.some.inj h)
    | _ => cases lang <;> cases h
  | _ :: _ :: _ :: _ :: _ => cases f <;> cases lang <;> cases h

end Verif
