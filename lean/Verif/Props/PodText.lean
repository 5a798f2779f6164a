import Verif.PodTextParse
import Verif.Spec.PodGrammar
import Verif.Props.StrDen
/-! C59: the readable form of Picotron's pods. -/
namespace Verif.PodText
open Verif.Pxu (UD)

set_option linter.unusedSectionVars false
variable {F : Type} [DecidableEq F] {fl : Floats F} {up : Unpod F} {isDig : Nat → Bool}

theorem toksVal_ne_nil {sf : List Nat → List Nat} (b : UD → Bool) (v : Val F) : toksVal fl sf b v ≠ [] := by
  obtain ⟨t, r, h, _⟩ := toksVal_head (fl := fl) (sf := sf) b v
  rw [h]; simp

/-- Whatever literals strings are written as. -/
theorem roundtrip_lits {sf : List Nat → List Nat} (hd : Lits sf) (b : UD → Bool) {v : Val F} (hv : v.Ok fl) :
    parsePod fl up (v.taken b) (fmtVal fl sf (phCall b) v) = some v := by
  have h1 := lex_val hd b v hv [] Delim.nil
  rw [List.append_nil, lexAll_nil] at h1
  simp only [Option.map_some, List.append_nil] at h1
  have h2 := parse_val (up := up) hd b v hv (3 * (toksVal fl sf b v).length) (Nat.le_refl _) [] []
  rw [List.append_nil, List.append_nil] at h2
  unfold parsePod
  rw [h1]
  have hne := toksVal_ne_nil (fl := fl) (sf := sf) b v
  split
  · rename_i h; cases h
  · rename_i h; simp only [Option.some.injEq] at h; exact absurd h hne
  · rename_i ts _ h
    simp only [Option.some.injEq] at h
    subst h
    rw [h2]

/-- **C59.** Also with some of the userdata written as `userdata()` and handed over in order. -/
theorem C59_roundtrip_userdata (hd : AsciiDig isDig) (b : UD → Bool) {v : Val F} (hv : v.Ok fl) :
    parsePod fl up (v.taken b) (fmtVal fl (fmtStr isDig) (phCall b) v) = some v := roundtrip_lits (lits_fmtStr hd) b hv

/-- **C59.** A pod that is written as text and read back is the same pod, with its entries in the same order. -/
theorem C59_roundtrip (hd : AsciiDig isDig) {v : Val F} (hv : v.Ok fl) : parsePod fl up [] (formatPod fl isDig v) = some v := by
  have h := C59_roundtrip_userdata (up := up) hd (fun _ => false) hv
  have e : (phCall fun _ => false) = fun _ : UD => (none : Option (List Nat)) := by funext u; simp [phCall]
  have ht : v.taken (fun _ => false) = [] := by
    have key : ∀ n, (∀ v : Val F, sizeOf v < n → v.taken (fun _ => false) = []) ∧ ∀ t : Items F, sizeOf t < n → t.taken (fun _ => false) = [] := by
      intro n
      induction n with
      | zero => exact ⟨fun v h => absurd h (Nat.not_lt_zero _), fun v h => absurd h (Nat.not_lt_zero _)⟩
      | succ n ih =>
        constructor
        · intro v h
          cases v with
          | table t => rw [Val.taken]; exact ih.2 t (by simp at h; omega)
          | ud u => simp [Val.taken]
          | _ => simp [Val.taken]
        · intro t h
          cases t with
          | nil => simp [Items.taken]
          | cons k v t =>
            simp only [Items.cons.sizeOf_spec] at h
            rw [Items.taken, ih.1 v (by omega), ih.2 t (by omega)]; rfl
    exact (key (sizeOf v + 1)).1 v (by omega)
  rw [e, ht] at h
  exact h

/-! ### The text itself -/

theorem dec_natDigits (n : Nat) : StrSpec.Dec (natDigits n) n := by
  induction n using Nat.strongRecOn with
  | ind n ih =>
    rw [natDigits]
    split
    · have := StrSpec.Dec.snoc .nil (d := n) (by omega)
      simpa using this
    · have := StrSpec.Dec.snoc (ih (n / 10) (by omega)) (d := n % 10) (by omega)
      rwa [show 10 * (n / 10) + n % 10 = n by omega] at this

abbrev floatText (fl : Floats F) (f : F) (s : List Nat) : Prop := s = fmtFloat fl f

theorem reads_int {v : Int} (h : IntOk v) : Reads (floatText fl) utf8Bytes (fmtInt v) (.int v) := by
  rw [fmtInt_eq h]
  obtain ⟨h1, h2⟩ := h
  by_cases hv : v < 0
  · have := Reads.neg (float := floatText fl) (uni := utf8Bytes) (natDigits_ne_nil v.natAbs) (dec_natDigits _) (by omega)
    rw [show (-(v.natAbs : Int)) = v by omega] at this
    simpa [hv] using this
  · have := Reads.int (float := floatText fl) (uni := utf8Bytes) (natDigits_ne_nil v.natAbs) (dec_natDigits _) (by omega)
    rw [show (v.natAbs : Int) = v by omega] at this
    simpa [hv] using this

theorem reads_str (hd : AsciiDig isDig) (s : List Nat) : Reads (floatText fl) utf8Bytes (fmtStr isDig s) (.str s) := by
  obtain ⟨q, body, _, h2, h3, h4⟩ := C17_quoted_denotes hd false true utf8Bytes (quote := some 34) (by intro q h; cases h; simp) s
  have : fmtStr isDig s = 34 :: (body ++ [34]) := by
    have e := h2 34 rfl
    subst e
    rw [← h3]; unfold fmtStr formatLiteral; simp
  rw [this]
  exact .str h4

theorem reads_bool (b : Bool) : Reads (floatText fl) utf8Bytes (fmtBool b) (.bool b) := by
  cases b
  · exact .false
  · exact .true

theorem reads_key (hd : AsciiDig isDig) {k : Key F} (hk : k.Ok fl) : Reads (floatText fl) utf8Bytes (fmtKey fl (fmtStr isDig) k) k.val := by
  cases k with
  | bool b => exact reads_bool b
  | int v => exact reads_int hk
  | float f => exact .float rfl
  | str s => exact reads_str hd s

theorem reads_ud (hd : AsciiDig isDig) {u : UD} (hw : IntOk u.width) (hh : IntOk u.height) :
    Reads (floatText fl) utf8Bytes (fmtUd (fmtStr isDig) u) (.ud u) := by
  unfold fmtUd
  obtain ⟨type, width, height, data⟩ := u
  simp only
  by_cases h0 : height = 0
  · subst h0
    have := Reads.line (reads_str (fl := fl) hd type) (reads_int hw) (reads_str hd data)
    simpa [chars, txt] using this
  · have := Reads.rect (reads_str (fl := fl) hd type) (reads_int hw) (reads_int hh) (reads_str hd data)
    simpa [chars, txt, h0] using this

theorem isName_of {s : List Nat} (h : isIdentifier false s = true) : IsName s := by
  unfold isIdentifier at h
  simp only [Bool.and_eq_true, Bool.not_eq_true', List.all_eq_true] at h
  obtain ⟨⟨⟨h1, h2⟩, h3⟩, h4⟩ := h
  constructor
  · cases s with
    | nil => simp at h1
    | cons c t =>
      refine ⟨c, t, rfl, ?_, ?_⟩
      · have := h2 c (by simp)
        simp [isIdentChar, isDigitChar] at this h3; omega
      · intro x hx
        have := h2 x (by simp [hx])
        simp [isIdentChar] at this; omega
  · intro hm
    have : s ∈ keywords := hm
    rw [List.contains_iff_mem.mpr this] at h4
    cases h4

theorem commas_rel : ∀ l : List (List Nat), Commas l (commas l)
  | [] => .nil
  | [a] => .one a
  | _ :: b :: r => .more (commas_rel (b :: r))

mutual
theorem reads_val (hd : AsciiDig isDig) : ∀ v : Val F, v.Ok fl → Reads (floatText fl) utf8Bytes (fmtVal fl (fmtStr isDig) (fun _ => none) v) v
  | .nil, _ => by rw [fmtVal]; exact .nil
  | .bool b, _ => by rw [fmtVal]; exact reads_bool b
  | .int i, h => by rw [fmtVal]; rw [Val.Ok] at h; exact reads_int h
  | .float f, _ => by rw [fmtVal]; exact .float rfl
  | .str s, _ => by rw [fmtVal]; exact reads_str hd s
  | .ud u, h => by rw [fmtVal]; rw [Val.Ok] at h; exact reads_ud hd h.1 h.2
  | .table t, h => by
    rw [Val.Ok] at h
    rw [fmtVal]
    exact .table (reads_fields hd t h 1 (by omega)) (commas_rel _)
theorem reads_fields (hd : AsciiDig isDig) : ∀ t : Items F, t.Ok fl → ∀ i : Int, 1 ≤ i →
    Fields (floatText fl) utf8Bytes i (fmtItems fl (fmtStr isDig) (fun _ => none) i t) t
  | .nil, _, i, _ => by rw [fmtItems]; exact .nil
  | .cons k v t, h, i, hi => by
    rw [Items.Ok] at h
    obtain ⟨h1, h2, h3, h4, h5⟩ := h
    rw [fmtItems]
    split
    · rename_i hk
      rw [norm_index h1 hi hk]
      exact .pos (reads_val hd v h3) (reads_fields hd t h5 (i + 1) (by omega))
    · have hkey : Fields (floatText fl) utf8Bytes i ((91 :: (fmtKey fl (fmtStr isDig) k ++ 93 :: 61 :: fmtVal fl (fmtStr isDig) (fun _ => none) v)) ::
          fmtItems fl (fmtStr isDig) (fun _ => none) i t) (.cons k v t) := .key (reads_key hd h1) (reads_val hd v h3) (reads_fields hd t h5 i hi)
      cases k with
      | str s =>
        simp only [fmtHead]
        split
        · rename_i hs
          have := Fields.name (isName_of hs) (reads_val hd v h3) (reads_fields hd t h5 i hi)
          simpa using this
        · simpa [fmtKey] using hkey
      | bool _ => simpa [fmtHead] using hkey
      | int _ => simpa [fmtHead] using hkey
      | float _ => simpa [fmtHead] using hkey
end

/-- **C59.** The text is an expression of Lua that has the pod as its value: decimal integers, string literals, positional entries
only where the position is right, names that are names. -/
theorem C59_text_denotes (hd : AsciiDig isDig) {v : Val F} (hv : v.Ok fl) :
    Reads (fun f s => s = fmtFloat fl f) utf8Bytes (formatPod fl isDig v) v := reads_val hd v hv

/-- **C59.** Hence different pods have different texts. -/
theorem C59_injective (hd : AsciiDig isDig) {v w : Val F} (hv : v.Ok fl) (hw : w.Ok fl) (h : formatPod fl isDig v = formatPod fl isDig w) :
    v = w := by
  have h1 := C59_roundtrip (up := fun _ => none) hd hv
  rw [h, C59_roundtrip hd hw] at h1
  exact (Option.some.inj h1).symm

/-! ### What is left out -/

deriving instance DecidableEq for UD
deriving instance DecidableEq for Val, Items

/-- Floats as halves: `f / 2`; the text is the integral part and `.0` or `.5`. -/
def halves : Floats Int where
  fmt f := (f < 0, natDigits (f.natAbs / 2) ++ [46, if f.natAbs % 2 = 0 then 48 else 53])
  read s := ((parseNat (s.take (s.length - 2))).map fun n => (2 * n + (if s.getLast? = some 53 then 1 else 0) : Int))
  neg f := -f
  toInt f := if f % 2 = 0 then some (f / 2) else none

/-- The key `true` becomes the key `1`, alone or behind another entry `1`, which it replaces. -/
theorem C59_true_key_counterexample :
    parsePod halves (fun _ => none) [] (formatPod halves isDigit (.table (.cons (.bool true) (.int 5) .nil))) =
      some (.table (.cons (.int 1) (.int 5) .nil)) ∧
    parsePod halves (fun _ => none) [] (txt "{[1]=5,[true]=6}") = some (.table (.cons (.int 1) (.int 6) .nil)) := by
  constructor <;> decide +kernel

/-- `{[0]=5,[false]=6}`, two entries in Lua, is read as one. -/
theorem C59_false_key_counterexample :
    Reads (fun f s => s = fmtFloat halves f) utf8Bytes (txt "{[0]=5,[false]=6}") (.table (.cons (.int 0) (.int 5) (.cons (.bool false) (.int 6) .nil))) ∧
    parsePod halves (fun _ => none) [] (txt "{[0]=5,[false]=6}") = some (.table (.cons (.int 0) (.int 6) .nil)) := by
  constructor
  · have d : ∀ n < 10, Reads (fun f s => s = fmtFloat halves f) utf8Bytes [48 + n] (.int n) := by
      intro n hn
      exact .int (by simp) (by have := StrSpec.Dec.snoc .nil (d := n) hn; simpa using this) (by omega)
    have hf := Fields.key (i := 1) (k := .int 0) (d 0 (by omega)) (d 5 (by omega))
      (Fields.key (k := .bool false) (.false) (d 6 (by omega)) .nil)
    exact Reads.table hf (.more (.one _))
  · decide +kernel

/-- An integer of nineteen digits below zero comes back as a float (C19). -/
theorem C59_big_int_counterexample : formatPod halves isDigit (.int (-10 ^ 18)) ≠ txt "-1000000000000000000" ∧
    parsePod halves (fun _ => none) [] (formatPod halves isDigit (.int (-10 ^ 18))) ≠ some (.int (-10 ^ 18)) := by
  constructor <;> decide +kernel

/-! Cases meeting the hypotheses. -/

theorem halves_ok {f : Int} : f = 3 ∨ f = -7 → FloatOk halves f := by
  rintro (rfl | rfl)
  · exact ⟨⟨⟨49, [46, 53], by decide +kernel, Or.inl (by decide)⟩, by decide +kernel⟩, by decide +kernel, 3, by decide +kernel, by decide +kernel⟩
  · exact ⟨⟨⟨51, [46, 53], by decide +kernel, Or.inl (by decide)⟩, by decide +kernel⟩, by decide +kernel, 7, by decide +kernel, by decide +kernel⟩

/-- `{10,-3.5,x={"a\"b"},[false]=userdata("u8",2,"0102"),["end"]=nil...}`, with positional, named, bracketed entries. -/
def sample : Val Int := .table (.cons (.int 1) (.int 10) (.cons (.int 2) (.float (-7)) (.cons (.str (txt "x")) (.table (.cons (.int 1) (.str [97, 34, 0, 98]) .nil))
  (.cons (.bool false) (.ud ⟨txt "u8", 2, 0, txt "0102"⟩) (.cons (.str (txt "end")) (.bool true) (.cons (.float 3) (.int (-1)) .nil))))))

example : sample.Ok halves := by
  unfold sample
  simp only [Val.Ok, Items.Ok, Key.Ok, Val.isNil, Items.keys, IntOk]
  refine ⟨by decide, trivial, by decide, by decide, by decide, trivial, halves_ok (Or.inr rfl), by decide, trivial, trivial,
    ⟨by decide, trivial, trivial, by simp, trivial⟩, by decide, trivial, trivial, by decide, by decide, trivial, trivial, trivial, by decide,
    ⟨halves_ok (Or.inl rfl), by decide⟩, trivial, by decide, by simp, trivial⟩

example : formatPod halves isDigit sample =
    txt "{10,-3.5,x={\"a\\\"\\0b\"},[false]=userdata(\"u8\",2,\"0102\"),[\"end\"]=true,[1.5]=-1}" := by decide +kernel

end Verif.PodText
