import Verif.StoredPod
import Verif.Spec.StoredPod
import Verif.Props.LuaStr
import Verif.Props.PodText
import Verif.PtFileLemmas
/-! Lemmas about stored pods. -/
set_option linter.unusedSectionVars false
namespace Verif.Stored
open Verif.Pxu (UD writePxu readPxu sig)
open Verif.PodText
open Verif.LuaStr (encode decode encode_cons encode_cons_none decode_char C60_bytes C60_ascii_split)

/-! ### Text and bytes -/

theorem encode_nil : encode [] = some [] := rfl

theorem encode_append (a b : List Nat) : encode (a ++ b) = (encode a).bind fun x => (encode b).map (x ++ ·) := by
  induction a with
  | nil => rw [encode_nil, List.nil_append]; cases encode b <;> rfl
  | cons c a ih =>
    rw [List.cons_append]
    cases h : utf8SurrogateEscape c with
    | none => rw [encode_cons_none h, encode_cons_none h]; rfl
    | some u =>
      rw [encode_cons h, encode_cons h, ih]
      cases encode a <;> cases encode b <;> simp

/-- Text that is read back from its bytes. -/
def Canon (t : List Nat) : Prop := ∃ bs, encode t = some bs ∧ decode bs = t ∧ ∀ b ∈ bs, b < 256

theorem canon_of {s : List Nat} (h : FromBytes s) : Canon s := by
  obtain ⟨bs, hb, rfl⟩ := h
  exact ⟨bs, C60_bytes bs hb, rfl, hb⟩

theorem canon_nil : Canon [] := ⟨[], rfl, rfl, by simp⟩

theorem encode_ascii {c : Nat} (h : c < 128) (t : List Nat) : encode (c :: t) = (encode t).map (c :: ·) := by
  rw [encode_cons (u := [c]) (by simp [utf8SurrogateEscape, h])]; rfl

theorem canon_split {a b : List Nat} {c : Nat} (hc : c < 128) (h : Canon (a ++ c :: b)) : Canon a ∧ Canon b := by
  obtain ⟨bs, h1, h2, h3⟩ := h
  rw [encode_append, encode_ascii hc] at h1
  cases ha : encode a with
  | none => rw [ha] at h1; cases h1
  | some x =>
    cases hb : encode b with
    | none => rw [ha, hb] at h1; cases h1
    | some y =>
      rw [ha, hb] at h1
      simp only [Option.map_some, Option.bind_some, Option.some.injEq] at h1
      subst h1
      rw [C60_ascii_split _ _ hc] at h2
      have hx : ∀ b ∈ x, b < 256 := fun b hb => h3 b (by simp [hb])
      have hy : ∀ b ∈ y, b < 256 := fun b hb => h3 b (by simp [hb])
      have ex := C60_bytes x hx
      rcases List.append_eq_append_iff.1 h2 with ⟨l, e1, e2⟩ | ⟨l, e1, e2⟩
      · cases l with
        | nil =>
          rw [List.append_nil] at e1
          rw [List.nil_append, List.cons.injEq] at e2
          exact ⟨⟨x, ha, e1.symm, hx⟩, ⟨y, hb, e2.2, hy⟩⟩
        | cons z l =>
          exfalso
          rw [List.cons_append, List.cons.injEq] at e2
          obtain ⟨rfl, e2⟩ := e2
          rw [e1, encode_append, ex, encode_ascii hc] at ha
          cases hl : encode l with
          | none => rw [hl] at ha; cases ha
          | some w =>
            rw [hl] at ha
            simp at ha
      · cases l with
        | nil =>
          rw [List.append_nil] at e1
          rw [List.nil_append, List.cons.injEq] at e2
          exact ⟨⟨x, ha, e1, hx⟩, ⟨y, hb, e2.2.symm, hy⟩⟩
        | cons z l =>
          exfalso
          rw [List.cons_append, List.cons.injEq] at e2
          obtain ⟨rfl, e2⟩ := e2
          rw [e1, encode_append, ha, encode_ascii hc] at ex
          cases hl : encode l with
          | none => rw [hl] at ex; cases ex
          | some w =>
            rw [hl] at ex
            simp at ex

theorem canon_join {a b : List Nat} {c : Nat} (hc : c < 128) (ha : Canon a) (hb : Canon b) : Canon (a ++ c :: b) := by
  obtain ⟨x, a1, a2, a3⟩ := ha
  obtain ⟨y, b1, b2, b3⟩ := hb
  refine ⟨x ++ c :: y, ?_, by rw [C60_ascii_split _ _ hc, a2, b2], ?_⟩
  · rw [encode_append, encode_ascii hc, a1, b1]; rfl
  · intro b hb
    rcases List.mem_append.1 hb with h | h
    · exact a3 b h
    · rcases List.mem_cons.1 h with rfl | h
      · omega
      · exact b3 b h

theorem canon_ascii {w : List Nat} (h : ∀ c ∈ w, c < 128) {t : List Nat} (ht : Canon t) : Canon (w ++ t) := by
  induction w with
  | nil => exact ht
  | cons c w ih => exact canon_join (a := []) (h c (by simp)) canon_nil (ih fun x hx => h x (by simp [hx]))

/-- ASCII characters are replaced with ASCII words. -/
inductive Rw : List Nat → List Nat → Prop
  | nil : Rw [] []
  | keep (c : Nat) {s t : List Nat} (h : Rw s t) : Rw (c :: s) (c :: t)
  | ascii {c d : Nat} {w s t : List Nat} (hc : c < 128) (hd : d < 128) (hw : ∀ x ∈ w, x < 128) (h : Rw s t) : Rw (c :: s) (d :: (w ++ t))

theorem canon_rw {s t : List Nat} (h : Rw s t) : ∀ p, Canon (p ++ s) → Canon (p ++ t) := by
  induction h with
  | nil => exact fun p h => h
  | @keep c s t _ ih =>
    intro p hp
    have := ih (p ++ [c]) (by simpa using hp)
    simpa using this
  | ascii hc hd hw _ ih =>
    intro p hp
    obtain ⟨h1, h2⟩ := canon_split hc hp
    exact canon_join hd h1 (canon_ascii hw (ih [] h2))

/-- Text that is read back from its bytes whatever follows; no character is 0. -/
def Solid (t : List Nat) : Prop := ∃ bs, encode t = some bs ∧ (∀ r, decode (bs ++ r) = t ++ decode r) ∧ (∀ b ∈ bs, b < 256) ∧ 0 ∉ bs

theorem solid_nil : Solid [] := ⟨[], rfl, fun _ => rfl, by simp, by simp⟩

theorem solid_append {a b : List Nat} (ha : Solid a) (hb : Solid b) : Solid (a ++ b) := by
  obtain ⟨x, a1, a2, a3, a4⟩ := ha
  obtain ⟨y, b1, b2, b3, b4⟩ := hb
  refine ⟨x ++ y, by rw [encode_append, a1, b1]; rfl, fun r => by rw [List.append_assoc, a2, b2, List.append_assoc], ?_, by simp [a4, b4]⟩
  intro b hb
  rcases List.mem_append.1 hb with h | h
  · exact a3 b h
  · exact b3 b h

theorem decode_ascii {c : Nat} (h : c < 128) (r : List Nat) : decode (c :: r) = c :: decode r := C60_ascii_split [] r h

theorem solid_ascii {t : List Nat} (h : ∀ c ∈ t, 0 < c ∧ c < 128) : Solid t := by
  induction t with
  | nil => exact solid_nil
  | cons c t ih =>
    have hc := h c (by simp)
    have : Solid [c] := ⟨[c], by rw [encode_ascii hc.2]; rfl, fun r => decode_ascii hc.2 r, by simp; omega, by simp; omega⟩
    exact solid_append this (ih fun x hx => h x (by simp [hx]))

theorem enc_nonzero {c : Nat} {u : List Nat} (hc : c ≠ 0) (h : utf8SurrogateEscape c = some u) : 0 ∉ u := by
  unfold utf8SurrogateEscape at h
  split at h
  · cases h; simp; omega
  · split at h
    · cases h; simp; omega
    · split at h
      · split at h
        · cases h; simp; omega
        · cases h
      · split at h <;> cases h <;> simp <;> omega

theorem encode_nonzero {t bs : List Nat} (h0 : 0 ∉ t) (h : encode t = some bs) : 0 ∉ bs := by
  induction t generalizing bs with
  | nil => cases h; simp
  | cons c t ih =>
    cases hu : utf8SurrogateEscape c with
    | none => rw [encode_cons_none hu] at h; cases h
    | some u =>
      rw [encode_cons hu] at h
      cases ht : encode t with
      | none => rw [ht] at h; cases h
      | some x =>
        rw [ht] at h; cases h
        simp only [List.mem_append, not_or]
        exact ⟨enc_nonzero (fun e => h0 (by simp [e])) hu, ih (fun e => h0 (by simp [e])) ht⟩

/-- What is read back from its bytes is so before an ASCII character. -/
theorem solid_canon {t : List Nat} {c : Nat} (h : Canon t) (h0 : 0 ∉ t) (hc : 0 < c ∧ c < 128) : Solid (t ++ [c]) := by
  obtain ⟨bs, h1, h2, h3⟩ := h
  refine ⟨bs ++ [c], by rw [encode_append, h1, encode_ascii hc.2]; rfl, fun r => ?_, ?_, ?_⟩
  · rw [List.append_assoc, List.singleton_append, C60_ascii_split _ _ hc.2, h2]; simp
  · intro b hb
    rcases List.mem_append.1 hb with h | h
    · exact h3 b h
    · simp at h; omega
  · have := encode_nonzero h0 h1
    simp [this]; omega

/-! ### Literals -/

variable {isDig : Nat → Bool}

theorem charEscape_ascii {e c : Nat} (h : charEscape e = some c) : c < 128 ∧ 0 < e ∧ e < 128 := by
  unfold charEscape at h
  have := lookup_mem h
  revert this
  simp
  omega

theorem rw_litParts (hd : AsciiDig isDig) : ∀ s, Rw s (litParts isDig true 34 s) ∧ 0 ∉ litParts isDig true 34 s
  | [] => ⟨.nil, by simp [litParts]⟩
  | c :: s => by
    obtain ⟨i1, i2⟩ := rw_litParts hd s
    have dig : ∀ {d}, isDigit d = true → 0 < d ∧ d < 128 := by
      intro d h
      simp only [isDigit, Bool.and_eq_true, decide_eq_true_eq] at h
      omega
    have h0 : c = 0 → litPart isDig true 34 c s ≠ [c] := by
      rintro rfl
      unfold litPart
      rw [show escOf true 0 = some [48] by decide]
      simp
    rw [litParts_cons]
    rcases litPart_cases hd (q := 34) (.inl rfl) c s (u := true) with ⟨e, h1, h2, h3⟩ | ⟨x, e, h, hx⟩ | ⟨a, b, e, ha, hb, hn, hc⟩ | ⟨e, rfl, hv⟩ |
      ⟨b, e, hb, hn, hc, hv⟩ <;> rw [e] <;> simp only [List.cons_append, List.nil_append]
    · refine ⟨.keep c i1, ?_⟩
      have : c ≠ 0 := fun hc => h0 hc e
      simp [i2]; omega
    · obtain ⟨k1, k2, k3⟩ := charEscape_ascii h
      refine ⟨.ascii (w := [x]) k1 (by omega) (by simp; omega) i1, by simp [i2]; omega⟩
    · have := dig ha
      have := dig hb
      refine ⟨.ascii (w := [48, a, b]) (by omega) (by omega) (by simp; omega) i1, by simp [i2]; omega⟩
    · refine ⟨.ascii (w := [48]) (by omega) (by omega) (by simp) i1, by simp [i2]⟩
    · have := dig hb
      refine ⟨.ascii (w := [49, b]) (by omega) (by omega) (by simp; omega) i1, by simp [i2]; omega⟩

theorem rw_esc : ∀ s, Rw s (PtFile.esc s)
  | [] => .nil
  | c :: s => by
    rw [PtFile.esc]
    split
    · rename_i h
      exact .ascii (d := 92) (w := [57, 51]) (by omega) (by omega) (by simp) (rw_esc s)
    · exact .keep c (rw_esc s)

theorem esc_nonzero : ∀ {s : List Nat}, 0 ∉ s → 0 ∉ PtFile.esc s
  | [], _ => by simp [PtFile.esc]
  | c :: s, h => by
    have ih := esc_nonzero (s := s) (fun e => h (by simp [e]))
    have : c ≠ 0 := fun e => h (by simp [e])
    rw [PtFile.esc]
    split
    · simp [PtFile.asc, ih]
    · simp [ih]; omega

/-- Literals as they are in metadata. -/
def escStr (isDig : Nat → Bool) (s : List Nat) : List Nat := 34 :: (PtFile.esc (litParts isDig true 34 s) ++ [34])

theorem solid_str (hd : AsciiDig isDig) {s : List Nat} (h : FromBytes s) : Solid (fmtStr isDig s) ∧ Solid (escStr isDig s) := by
  obtain ⟨h1, h2⟩ := rw_litParts hd s
  have c1 := canon_rw h1 [] (canon_of h)
  have c2 := canon_rw (rw_esc _) [] c1
  rw [fmtStr_eq]
  have q : Solid [34] := solid_ascii (by simp)
  exact ⟨solid_append q (solid_canon c1 h2 (by omega)), solid_append q (solid_canon c2 (esc_nonzero h2) (by omega))⟩

/-! ### Pods as text with gaps -/

variable {F : Type} [DecidableEq F] {fl : Floats F} {sf : List Nat → List Nat}

/-- A piece of the text of a pod. -/
inductive Seg
  | txt (t : List Nat)
  | ud (u : UD)

/-- The pieces of parts, each with a comma before it. -/
def segTail : List (List Seg) → List Seg
  | [] => []
  | a :: l => .txt [44] :: (a ++ segTail l)

def segCommas : List (List Seg) → List Seg
  | [] => []
  | a :: l => a ++ segTail l

mutual
def segVal (fl : Floats F) (sf : List Nat → List Nat) : Val F → List Seg
  | .nil => [.txt (txt "nil")]
  | .bool b => [.txt (fmtBool b)]
  | .int v => [.txt (fmtInt v)]
  | .float f => [.txt (fmtFloat fl f)]
  | .str s => [.txt (sf s)]
  | .ud u => [.ud u]
  | .table items => .txt [123] :: (segCommas (segItems fl sf 1 items) ++ [.txt [125]])
def segItems (fl : Floats F) (sf : List Nat → List Nat) (index : Int) : Items F → List (List Seg)
  | .nil => []
  | .cons k v r =>
    if k.norm fl = .int index then segVal fl sf v :: segItems fl sf (index + 1) r
    else (.txt (fmtHead fl sf k) :: segVal fl sf v) :: segItems fl sf index r
end

def Seg.fill (g : UD → List Nat) : Seg → List Nat
  | .txt t => t
  | .ud u => g u

def fill (g : UD → List Nat) (l : List Seg) : List Nat := l.flatMap (Seg.fill g)

theorem fill_append (g : UD → List Nat) (a b : List Seg) : fill g (a ++ b) = fill g a ++ fill g b := by simp [fill]
theorem fill_cons (g : UD → List Nat) (a : Seg) (b : List Seg) : fill g (a :: b) = a.fill g ++ fill g b := by simp [fill]
theorem fill_nil (g : UD → List Nat) : fill g [] = [] := rfl

theorem fill_tail (g : UD → List Nat) : ∀ l : List (List Seg), fill g (segTail l) = tailText (l.map (fill g))
  | [] => rfl
  | a :: l => by
    rw [segTail, fill_cons, fill_append, fill_tail g l]
    rfl

theorem fill_commas (g : UD → List Nat) : ∀ l : List (List Seg), fill g (segCommas l) = commas (l.map (fill g))
  | [] => rfl
  | a :: l => by rw [segCommas, fill_append, fill_tail, List.map_cons, commas_cons]

mutual
theorem fill_val (ph : UD → Option (List Nat)) : ∀ v : Val F, fill (fun u => (ph u).getD (fmtUd sf u)) (segVal fl sf v) = fmtVal fl sf ph v
  | .nil | .bool _ | .int _ | .float _ | .str _ | .ud _ => by simp [segVal, fmtVal, fill, Seg.fill]
  | .table t => by
    rw [segVal, fmtVal, fill_cons, fill_append, fill_commas, fill_items ph t 1]
    rfl
theorem fill_items (ph : UD → Option (List Nat)) : ∀ (t : Items F) (i : Int),
    (segItems fl sf i t).map (fill (fun u => (ph u).getD (fmtUd sf u))) = fmtItems fl sf ph i t
  | .nil, i => by rw [segItems, fmtItems]; rfl
  | .cons k v t, i => by
    rw [segItems, fmtItems]
    split
    · rw [List.map_cons, fill_val ph v, fill_items ph t (i + 1)]
    · rw [List.map_cons, fill_cons, fill_val ph v, fill_items ph t i]
      rfl
end

/-- The userdata in the gaps. -/
def gaps : List Seg → List UD
  | [] => []
  | .txt _ :: l => gaps l
  | .ud u :: l => u :: gaps l

theorem gaps_append : ∀ a b : List Seg, gaps (a ++ b) = gaps a ++ gaps b
  | [], _ => rfl
  | .txt _ :: a, b => by simp [gaps, gaps_append a b]
  | .ud _ :: a, b => by simp [gaps, gaps_append a b]

theorem gaps_tail : ∀ l : List (List Seg), gaps (segTail l) = (l.map gaps).flatten
  | [] => rfl
  | a :: l => by simp [segTail, gaps, gaps_append, gaps_tail l]

theorem gaps_commas : ∀ l : List (List Seg), gaps (segCommas l) = (l.map gaps).flatten
  | [] => rfl
  | a :: l => by simp [segCommas, gaps_append, gaps_tail]

mutual
theorem gaps_val : ∀ v : Val F, gaps (segVal fl sf v) = udsVal v
  | .nil | .bool _ | .int _ | .float _ | .str _ | .ud _ => by simp [segVal, udsVal, gaps]
  | .table t => by
    rw [segVal, udsVal, gaps, gaps_append, gaps_commas, gaps_items t 1]
    simp [gaps]
theorem gaps_items : ∀ (t : Items F) (i : Int), ((segItems fl sf i t).map gaps).flatten = udsItems t
  | .nil, i => by rw [segItems, udsItems]; rfl
  | .cons k v t, i => by
    rw [segItems, udsItems]
    split
    · rw [List.map_cons, List.flatten_cons, gaps_val v, gaps_items t (i + 1)]
    · rw [List.map_cons, List.flatten_cons, gaps, gaps_val v, gaps_items t i]
end

mutual
theorem taken_val (b : UD → Bool) : ∀ v : Val F, v.taken b = (udsVal v).filter b
  | .nil | .bool _ | .int _ | .float _ | .str _ => by simp [Val.taken, udsVal]
  | .ud u => by by_cases h : b u <;> simp [Val.taken, udsVal, h]
  | .table t => by rw [Val.taken, udsVal, taken_items b t]
theorem taken_items (b : UD → Bool) : ∀ t : Items F, t.taken b = (udsItems t).filter b
  | .nil => by simp [Items.taken, udsItems]
  | .cons k v t => by rw [Items.taken, udsItems, List.filter_append, taken_val b v, taken_items b t]
end

/-! ### Every piece is solid -/

/-- A way to write strings that is read back from its bytes. -/
def SolidStr (sf : List Nat → List Nat) : Prop := ∀ s, FromBytes s → Solid (sf s)

theorem solid_int {v : Int} (h : IntOk v) : Solid (fmtInt v) := by
  rw [fmtInt_eq h]
  apply solid_ascii
  intro c hc
  rcases List.mem_append.1 hc with h | h
  · split at h
    · simp at h; omega
    · cases h
  · have := natDigits_digit _ c h; omega

theorem solid_float (ha : AsciiFloats fl) (f : F) : Solid (fmtFloat fl f) := by
  apply solid_ascii
  intro c hc
  rcases List.mem_append.1 hc with h | h
  · split at h
    · simp at h; omega
    · cases h
  · exact (ha f c h).1

theorem solid_bool (b : Bool) : Solid (fmtBool b) := by cases b <;> exact solid_ascii (by decide)

theorem solid_ud (hs : SolidStr sf) {u : UD} (hw : IntOk u.width) (hh : IntOk u.height) (ht : FromBytes u.type) (hd : FromBytes u.data) :
    Solid (fmtUd sf u) := by
  have q : Solid [44] := solid_ascii (by simp)
  refine solid_append (solid_append (solid_append (solid_append (solid_append (solid_append (solid_append (solid_ascii (by decide)) (hs _ ht)) q)
    (solid_int hw)) ?_) q) (hs _ hd)) (solid_ascii (by simp))
  split
  · exact solid_append q (solid_int hh)
  · exact solid_nil

theorem solid_key (ha : AsciiFloats fl) (hs : SolidStr sf) {k : Key F} (hk : k.Ok fl) (hb : KeyBytes k) : Solid (fmtKey fl sf k) := by
  cases k with
  | bool b => exact solid_bool b
  | int v => exact solid_int hk
  | float f => exact solid_float ha f
  | str s => exact hs s hb

theorem ident_nonzero {s : List Nat} (h : isIdentifier false s = true) : 0 ∉ s := by
  obtain ⟨c, t, -, -, h, -⟩ := ident_ne_digit h
  intro h0
  have := h 0 h0
  revert this; decide

theorem solid_head (ha : AsciiFloats fl) (hs : SolidStr sf) {k : Key F} (hk : k.Ok fl) (hb : KeyBytes k) : Solid (fmtHead fl sf k) := by
  have gen : Solid (91 :: (fmtKey fl sf k ++ [93, 61])) :=
    solid_append (a := [91]) (solid_ascii (by simp)) (solid_append (solid_key ha hs hk hb) (solid_ascii (by simp)))
  cases k with
  | str s =>
    rw [fmtHead]
    split
    · rename_i h
      exact solid_canon (canon_of hb) (ident_nonzero h) (by omega)
    · exact gen
  | _ => exact gen

/-- The pieces are solid, and the userdata as in `Q`. -/
def SegOk (Q : UD → Prop) : Seg → Prop
  | .txt t => Solid t
  | .ud u => Q u

theorem segTail_ok {Q : UD → Prop} : ∀ {l : List (List Seg)}, (∀ a ∈ l, ∀ x ∈ a, SegOk Q x) → ∀ x ∈ segTail l, SegOk Q x
  | [], _, x, hx => by cases hx
  | a :: l, h, x, hx => by
    rw [segTail] at hx
    rcases List.mem_cons.1 hx with rfl | hx
    · exact solid_ascii (by simp)
    · rcases List.mem_append.1 hx with hx | hx
      · exact h a (by simp) x hx
      · exact segTail_ok (fun b hb => h b (by simp [hb])) x hx

theorem segCommas_ok {Q : UD → Prop} {l : List (List Seg)} (h : ∀ a ∈ l, ∀ x ∈ a, SegOk Q x) : ∀ x ∈ segCommas l, SegOk Q x := by
  cases l with
  | nil => intro x hx; cases hx
  | cons a l =>
    intro x hx
    rcases List.mem_append.1 hx with hx | hx
    · exact h a (by simp) x hx
    · exact segTail_ok (fun b hb => h b (by simp [hb])) x hx

/-- What is known of a userdata in a pod that can be stored. -/
def UdOk (P : UD → Prop) (u : UD) : Prop := IntOk u.width ∧ IntOk u.height ∧ FromBytes u.type ∧ FromBytes u.data ∧ P u

mutual
theorem seg_val {P : UD → Prop} (ha : AsciiFloats fl) (hs : SolidStr sf) : ∀ v : Val F, v.Ok fl → ValBytes P v → ∀ x ∈ segVal fl sf v, SegOk (UdOk P) x
  | .nil, _, _, x, hx => by rw [segVal, List.mem_singleton] at hx; subst hx; exact solid_ascii (by decide)
  | .bool b, _, _, x, hx => by rw [segVal, List.mem_singleton] at hx; subst hx; exact solid_bool b
  | .int v, h, _, x, hx => by rw [segVal, List.mem_singleton] at hx; subst hx; rw [Val.Ok] at h; exact solid_int h
  | .float f, _, _, x, hx => by rw [segVal, List.mem_singleton] at hx; subst hx; exact solid_float ha f
  | .str s, _, hb, x, hx => by rw [segVal, List.mem_singleton] at hx; subst hx; rw [ValBytes] at hb; exact hs s hb
  | .ud u, h, hb, x, hx => by
    rw [segVal, List.mem_singleton] at hx; subst hx
    rw [Val.Ok] at h; rw [ValBytes] at hb
    exact ⟨h.1, h.2, hb.1, hb.2.1, hb.2.2⟩
  | .table t, h, hb, x, hx => by
    rw [Val.Ok] at h; rw [ValBytes] at hb
    rw [segVal] at hx
    rcases List.mem_cons.1 hx with rfl | hx
    · exact solid_ascii (by simp)
    · rcases List.mem_append.1 hx with hx | hx
      · exact segCommas_ok (seg_items ha hs t h hb 1) x hx
      · rw [List.mem_singleton] at hx; subst hx; exact solid_ascii (by simp)
theorem seg_items {P : UD → Prop} (ha : AsciiFloats fl) (hs : SolidStr sf) : ∀ t : Items F, t.Ok fl → ItemsBytes P t → ∀ (i : Int),
    ∀ a ∈ segItems fl sf i t, ∀ x ∈ a, SegOk (UdOk P) x
  | .nil, _, _, i, a, h => by rw [segItems] at h; cases h
  | .cons k v t, h, hb, i, a, hl => by
    rw [Items.Ok] at h; rw [ItemsBytes] at hb
    obtain ⟨h1, -, h3, -, h5⟩ := h
    rw [segItems] at hl
    split at hl
    · rcases List.mem_cons.1 hl with rfl | hl
      · exact seg_val ha hs v h3 hb.2.1
      · exact seg_items ha hs t h5 hb.2.2 _ a hl
    · rcases List.mem_cons.1 hl with rfl | hl
      · intro x hx
        rcases List.mem_cons.1 hx with rfl | hx
        · exact solid_head ha hs h1 hb.1
        · exact seg_val ha hs v h3 hb.2.1 x hx
      · exact seg_items ha hs t h5 hb.2.2 _ a hl
end

end Verif.Stored
