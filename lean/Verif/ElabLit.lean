import Verif.ElabNorm
import Verif.MinifyText
import Verif.MinifyTron
import Verif.ConstFoldOps
/-
What the numbers and strings of PICO-8 and of Picotron are when a program runs (C76).
-/
namespace Verif.Elab
open Syntax
open Mini (codes text picoLit tronLit picoVal codes_digits codes_name codes_text parse_lt Floats Fits)
open Spec (rtUn)
open Paren (Op)

/-- A number of PICO-8 in normal form (`picoLit`): 32 bits. -/
def picoRead : List Nat → Num
  | 45 :: r => .sgn .neg (picoRead r)
  | 126 :: r => .sgn .bnot (picoRead r)
  | l => match parseNat l with
    | some v => if v < 2 ^ 32 then .lit (.fix v) else .prim (text l)
    | none => .prim (text l)

/-- A number of Picotron in normal form (`tronLit`): 64 bits of an integer; floating point numbers are the world's. -/
def tronRead : List Nat → Num
  | 45 :: r => .sgn .neg (tronRead r)
  | 126 :: r => .sgn .bnot (tronRead r)
  | 105 :: r => match parseNat r with
    | some v => if v < 2 ^ 64 then .lit (.int (toLuaInt v)) else .prim (text (105 :: r))
    | none => .prim (text (105 :: r))
  | l => .prim (text l)

/-- What programs of PICO-8 mean: numerals are 32 bits of fixed point (`picoSem_num`), literals strings of characters (`picoSem_str`). -/
def picoSem (enc : Prim → Nat) (given : Nat) (builtin : Syntax.Nm → Option Builtin) : Sem where
  num := fun s => picoRead (codes (picoLit.num s))
  str := fun s => .str (codes (picoLit.str s))
  enc := enc
  given := given
  builtin := builtin

/-- What programs of Picotron mean. -/
def tronSem (F : Floats) (enc : Prim → Nat) (given : Nat) (builtin : Syntax.Nm → Option Builtin) : Sem where
  num := fun s => tronRead (codes ((tronLit F).num s))
  str := fun s => .str (codes ((tronLit F).str s))
  enc := enc
  given := given
  builtin := builtin

theorem codes_sign (o : Op) (s : String) : codes ((if o = .minus then "-" else "~") ++ s) = (if o = .minus then 45 else 126) :: codes s := by
  split <;> simp [codes, String.toList_append]

theorem foldl_none (l : List Nat) :
    l.foldl (fun acc c => acc.bind fun a => if 48 ≤ c ∧ c ≤ 57 then some (a * 10 + (c - 48)) else none) (none : Option Nat) = none := by
  induction l with
  | nil => rfl
  | cons c l ih => simpa using ih

theorem parseNat_digit {c : Nat} {l : List Nat} {v : Nat} (h : parseNat (c :: l) = some v) : 48 ≤ c ∧ c ≤ 57 := by
  simp only [parseNat, reduceCtorEq, if_false, List.foldl_cons, Option.bind_some] at h
  split at h
  · assumption
  · rw [foldl_none] at h; cases h

theorem picoRead_nat {l : List Nat} {v : Nat} (h : parseNat l = some v) (hv : v < 2 ^ 32) : picoRead l = .lit (.fix v) := by
  unfold picoRead
  split
  · have := parseNat_digit h; omega
  · have := parseNat_digit h; omega
  · rw [h]; simp only; rw [if_pos hv]

theorem picoRead_val {v : Nat} (hv : v < 2 ^ 32) : picoRead (codes (picoVal v)) = .lit (.fix v) := by
  rw [picoVal, codes_digits]
  exact picoRead_nat (parseNat_natDigits v) hv

theorem tronRead_val {v : Nat} (hv : v < 2 ^ 64) : tronRead (codes (text (105 :: natDigits v))) = .lit (.int (toLuaInt v)) := by
  rw [codes_name]
  simp only [tronRead, parseNat_natDigits]
  rw [if_pos hv]

/-- A numeral is the number that is read. -/
theorem picoSem_num (enc : Prim → Nat) (given : Nat) (builtin : Syntax.Nm → Option Builtin) {s : String} {v : Nat} (h : parseFixnum (codes s) = some v) :
    (picoSem enc given builtin).num s = .lit (.fix v) := by
  simp only [picoSem, picoLit, h, Option.map_some, Option.getD_some]
  exact picoRead_val (parse_lt h)

theorem picoSem_str (enc : Prim → Nat) (given : Nat) (builtin : Syntax.Nm → Option Builtin) {s : String} {v : List Nat} (h : parseLiteral true (codes s) = some v)
    (hv : ∀ c ∈ v, Fits c) : (picoSem enc given builtin).str s = .str v := by
  simp only [picoSem, picoLit, h, Option.map_some, Option.getD_some, codes_text hv]

theorem neg_bits (w v : Nat) (hv : v < 2 ^ w) : BitVec.ofNat w ((2 ^ w - v) % 2 ^ w) = -BitVec.ofNat w v := by
  apply BitVec.eq_of_toNat_eq
  simp [BitVec.toNat_neg, Nat.mod_eq_of_lt hv]

theorem not_bits (w v : Nat) (hv : v < 2 ^ w) : BitVec.ofNat w (2 ^ w - 1 - v) = ~~~BitVec.ofNat w v := by
  apply BitVec.eq_of_toNat_eq
  simp only [BitVec.toNat_ofNat, BitVec.toNat_not, Nat.mod_eq_of_lt hv]
  apply Nat.mod_eq_of_lt
  omega

theorem pico_reads (enc : Prim → Nat) (given : Nat) (builtin : Syntax.Nm → Option Builtin) :
    Reads .pico8 picoLit (picoSem enc given builtin) (fun s => picoRead (codes s)) (fun s => .str (codes s)) where
  num := fun _ => rfl
  str := fun _ => rfl
  sgn := by
    intro o u v ho hu
    by_cases h : ∃ k, parseNat (codes v) = some k ∧ k < 2 ^ 32
    · obtain ⟨k, hk, hl⟩ := h
      refine .inr ⟨.fix k, .fix (if o = .minus then (2 ^ 32 - k) % 2 ^ 32 else 2 ^ 32 - 1 - k), .num (BitVec.ofNat 32 k),
        .num (BitVec.ofNat 32 (if o = .minus then (2 ^ 32 - k) % 2 ^ 32 else 2 ^ 32 - 1 - k)), picoRead_nat hk hl, ?_, ?_, ?_, ?_⟩
      · simp only [picoLit, hk, Option.bind_some]
        rw [if_pos hl, Option.getD_some]
        exact picoRead_val (by split <;> omega)
      · simp only [LV.repr]; rw [if_pos ⟨trivial, hl⟩]
      · rcases ho with rfl | rfl <;> cases hu
        · simp only [rtUn, if_true, neg_bits 32 k hl]
        · simp only [rtUn, reduceCtorEq, if_false, not_bits 32 k hl]
      · simp only [LV.repr]; rw [if_pos ⟨trivial, by split <;> omega⟩]
    · refine .inl ?_
      have e : picoLit.sgn o v = (if o = .minus then "-" else "~") ++ v := by
        simp only [picoLit]
        cases hk : parseNat (codes v) with
        | none => rfl
        | some k => rw [Option.bind_some, if_neg fun hl => h ⟨k, hk, hl⟩]; rfl
      rw [e, codes_sign]
      rcases ho with rfl | rfl <;> cases hu <;> simp [picoRead]

theorem toLuaInt_range (v : Nat) : -2 ^ 63 ≤ toLuaInt v ∧ toLuaInt v < 2 ^ 63 := by
  simp only [toLuaInt]
  split <;> omega

theorem toLuaInt_bits (v : Nat) (hv : v < 2 ^ 64) : BitVec.ofInt 64 (toLuaInt v) = BitVec.ofNat 64 v := by
  have e : toLuaInt v = v ∨ toLuaInt v = v - 2 ^ 64 := by
    simp only [toLuaInt]
    split <;> omega
  apply BitVec.eq_of_toNat_eq
  simp only [BitVec.toNat_ofInt, BitVec.toNat_ofNat]
  rcases e with e | e <;> rw [e] <;> omega

theorem tron_reads (F : Floats) (enc : Prim → Nat) (given : Nat) (builtin : Syntax.Nm → Option Builtin) :
    Reads .picotron (tronLit F) (tronSem F enc given builtin) (fun s => tronRead (codes s)) (fun s => .str (codes s)) where
  num := fun _ => rfl
  str := fun _ => rfl
  sgn := by
    intro o u v ho hu
    by_cases h : ∃ r k, codes v = 105 :: r ∧ parseNat r = some k ∧ k < 2 ^ 64
    · obtain ⟨r, k, hr, hk, hl⟩ := h
      have hj : (if o = .minus then (2 ^ 64 - k) % 2 ^ 64 else 2 ^ 64 - 1 - k) < 2 ^ 64 := by split <;> omega
      refine .inr ⟨.int (toLuaInt k), .int (toLuaInt ((if o = .minus then (2 ^ 64 - k) % 2 ^ 64 else 2 ^ 64 - 1 - k : Nat))), .int (BitVec.ofNat 64 k),
        .int (BitVec.ofNat 64 (if o = .minus then (2 ^ 64 - k) % 2 ^ 64 else 2 ^ 64 - 1 - k)), ?_, ?_, ?_, ?_, ?_⟩
      · simp only [hr, tronRead, hk]; rw [if_pos hl]
      · simp only [tronLit, hr, hk, Option.bind_some]
        rw [if_pos hl, Option.getD_some]
        exact tronRead_val hj
      · simp only [LV.repr]; rw [if_pos ⟨trivial, toLuaInt_range k⟩, toLuaInt_bits k hl]
      · rcases ho with rfl | rfl <;> cases hu
        · simp only [rtUn, if_true, neg_bits 64 k hl]
        · simp only [rtUn, reduceCtorEq, if_false, not_bits 64 k hl]
      · simp only [LV.repr]; rw [if_pos ⟨trivial, toLuaInt_range _⟩, toLuaInt_bits _ hj]
    · refine .inl ?_
      have e : (tronLit F).sgn o v = (if o = .minus then "-" else "~") ++ v := by
        simp only [tronLit]
        split
        · rename_i r hr
          cases hk : parseNat r with
          | none => rfl
          | some k => rw [Option.bind_some, if_neg fun hl => h ⟨r, k, hr, hk, hl⟩]; rfl
        · rfl
      rw [e, codes_sign]
      rcases ho with rfl | rfl <;> cases hu <;> simp [tronRead]

end Verif.Elab
