import Verif.Charset
import Verif.Spec.P8scii
/-! C16: P8SCII and Unicode conversion. -/
namespace Verif

/-- The shape of each entry of both tables: what the converter will do on reading it back. -/
def entryOk (u : Bool) (c : Nat) : Bool :=
  match (if u then unicapCharset else charset).getD c [] with
  | [a] => if a < 0x80 then a == c else charsetMap [a] == some c
  | [a, b] => 0x80 ≤ a && charsetMap [a] == none && charsetMap [a, b] == some c && 0x80 ≤ b && charsetMap [b] == none
  | _ => false

theorem entries_ok : ∀ u : Bool, ∀ c, c < 256 → entryOk u c = true := by
  have : ∀ u : Bool, ∀ c : Fin 256, entryOk u c.1 = true := by decide +kernel
  exact fun u c h => this u ⟨c, h⟩

theorem charset_length : charset.length = 256 := by decide +kernel

theorem unicapChars_length : unicapChars.length = 26 := by decide +kernel

theorem toP8_entry {u : Bool} {c : Nat} (hc : c < 256) (t : List Nat) :
    toP8 false ((if u then unicapCharset else charset).getD c [] ++ t) = (toP8 false t).map (c :: ·) := by
  have h := entries_ok u c hc
  unfold entryOk at h
  split at h
  · rename_i a e
    have hs : toP8Step false a t = some ([c], false) := by
      unfold toP8Step
      by_cases ha : a < 0x80
      · rw [if_pos ha] at h ⊢
        rw [beq_iff_eq] at h; rw [h]
      · rw [if_neg ha] at h ⊢
        rw [beq_iff_eq] at h; rw [h]
    rw [e, List.cons_append, List.nil_append, toP8, hs]
    rfl
  · rename_i a b e
    simp only [Bool.and_eq_true, decide_eq_true_eq, beq_iff_eq] at h
    obtain ⟨⟨⟨⟨h1, h2⟩, h3⟩, h4⟩, h5⟩ := h
    have hs : toP8Step false a (b :: t) = some ([c], true) := by
      unfold toP8Step
      rw [if_neg (by omega), h2]
      simp only [Bool.false_eq_true, if_false, List.take_succ_cons, List.take_zero]
      rw [h3]
    have hs2 : toP8Step true b t = some ([], false) := by
      unfold toP8Step
      rw [if_neg (by omega), h5]
      rfl
    rw [e, List.cons_append, List.cons_append, List.nil_append, toP8, hs]
    simp only
    rw [toP8, hs2]
    simp only [List.nil_append, Option.map_id', List.cons_append]
  · simp at h

/-- **C16.** Unicode text made from a P8SCII string is read back as that string, in either capital style, whatever text
follows it. -/
theorem C16_roundtrip_before {s : List Nat} (hs : ∀ c ∈ s, c < 256) (unicaps : Bool) (t : List Nat) :
    toP8str (fromP8str unicaps s ++ t) = (toP8str t).map (s ++ ·) := by
  unfold toP8str
  induction s with
  | nil => simp [fromP8str]
  | cons c s ih =>
    have ih := ih fun x hx => hs x (List.mem_cons_of_mem _ hx)
    unfold fromP8str at ih ⊢
    rw [List.flatMap_cons, List.append_assoc, toP8_entry (hs c (by simp)), ih, Option.map_map]
    rfl

/-- **C16.** Converting any P8SCII string to Unicode and back gives the same string. -/
theorem C16_roundtrip {s : List Nat} (hs : ∀ c ∈ s, c < 256) (unicaps : Bool) :
    toP8str (fromP8str unicaps s) = some s := by
  have := C16_roundtrip_before hs unicaps []
  simpa [toP8str, toP8] using this

/-- **C16.** Different P8SCII strings have different Unicode forms, even across the two capital styles. -/
theorem C16_from_injective {s s' : List Nat} (hs : ∀ c ∈ s, c < 256) (hs' : ∀ c ∈ s', c < 256) {u u' : Bool}
    (h : fromP8str u s = fromP8str u' s') : s = s' := by
  have h1 := C16_roundtrip hs u
  rw [h, C16_roundtrip hs' u'] at h1
  exact (Option.some.inj h1).symm

theorem lastIdx_lt {s : List Nat} {l : List (List Nat)} {i k : Nat} (h : lastIdx s l i = some k) : k < i + l.length := by
  induction l generalizing i with
  | nil => simp [lastIdx] at h
  | cons x l ih =>
    unfold lastIdx at h
    split at h
    · rename_i k' e
      simp only [Option.some.injEq] at h; subst h
      have := ih e
      simp only [List.length_cons]; omega
    · split at h
      · simp at h; subst h; simp
      · simp at h

theorem charsetMap_lt {s : List Nat} {k : Nat} (h : charsetMap s = some k) : k < 256 := by
  unfold charsetMap at h
  split at h
  · rename_i e
    have := lastIdx_lt e
    have hl := unicapChars_length
    simp at h; omega
  · have := lastIdx_lt h
    have hl := charset_length
    omega

theorem utf8_lt {c : Nat} (hc : c < 0x110000) {bs : List Nat} (h : utf8SurrogateEscape c = some bs) : ∀ b ∈ bs, b < 256 := by
  unfold utf8SurrogateEscape at h
  repeat' split at h
  all_goals simp at h
  all_goals subst h
  all_goals intro b hb
  all_goals simp at hb
  all_goals omega

/-- **C16.** Converting Unicode text always gives a P8SCII string (characters below 256), and fails only for text containing
a lone surrogate that does not stand for a byte. -/
theorem C16_to_is_p8str {t : List Nat} (ht : ∀ c ∈ t, c < 0x110000) :
    (∀ s, toP8str t = some s → ∀ c ∈ s, c < 256) ∧
    (toP8str t = none → ∃ c ∈ t, 0xd800 ≤ c ∧ c < 0xe000 ∧ ¬ (0xdc80 ≤ c ∧ c < 0xdd00)) := by
  unfold toP8str
  generalize false = ign
  induction t generalizing ign with
  | nil => simp [toP8]
  | cons ch rest ih =>
    have ih := fun g => ih (fun x hx => ht x (List.mem_cons_of_mem _ hx)) g
    have hch := ht ch (by simp)
    have step : ∀ (g : Bool) (pre : List Nat), (∀ c ∈ pre, c < 256) →
        (∀ s, (toP8 g rest).map (pre ++ ·) = some s → ∀ c ∈ s, c < 256) ∧
        ((toP8 g rest).map (pre ++ ·) = none →
          ∃ c ∈ ch :: rest, 0xd800 ≤ c ∧ c < 0xe000 ∧ ¬ (0xdc80 ≤ c ∧ c < 0xdd00)) := by
      intro g pre hp
      cases hr : toP8 g rest with
      | none =>
        refine ⟨by simp, fun _ => ?_⟩
        obtain ⟨c, h1, h2⟩ := (ih g).2 hr
        exact ⟨c, List.mem_cons_of_mem _ h1, h2⟩
      | some r =>
        refine ⟨?_, by simp⟩
        intro s hs c hc
        simp at hs; subst hs
        rcases List.mem_append.mp hc with h | h
        · exact hp c h
        · exact (ih g).1 r hr c h
    rw [toP8]
    unfold toP8Step
    by_cases h1 : ch < 0x80
    · rw [if_pos h1]
      exact step ign [ch] (by simp; omega)
    · rw [if_neg h1]
      cases hk : charsetMap [ch] with
      | some k => exact step ign [k] (by simpa using charsetMap_lt hk)
      | none =>
        cases ign with
        | true => exact step false [] (by simp)
        | false =>
          simp only [Bool.false_eq_true, if_false]
          cases hk : charsetMap (ch :: rest.take 1) with
          | some k => exact step true [k] (by simpa using charsetMap_lt hk)
          | none =>
            cases hu : utf8SurrogateEscape ch with
            | none =>
              refine ⟨by simp, fun _ => ⟨ch, by simp, ?_⟩⟩
              unfold utf8SurrogateEscape at hu
              repeat' split at hu
              all_goals simp at hu
              omega
            | some bs => exact step false bs (utf8_lt hch hu)

/-- **C16.** ASCII text is left alone. -/
theorem C16_ascii_unchanged {t : List Nat} (ht : ∀ c ∈ t, c < 0x80) : toP8str t = some t := by
  unfold toP8str
  induction t with
  | nil => rfl
  | cons c t ih =>
    rw [toP8, toP8Step, if_pos (ht c (by simp))]
    simp only
    rw [ih fun x hx => ht x (List.mem_cons_of_mem _ hx)]
    rfl

/-- A string with a two-code-point character next to a variation selector, italics, and control characters. -/
example : fromP8str true [131, 65, 10, 0, 142] = [11015, 65039, 120354, 10, 0, 127358, 65039] ∧
    toP8str [11015, 65039, 65039, 120354] = some [131, 0xef, 0xb8, 0x8f, 65] := by decide +kernel

/-- **C16.** Each P8SCII character is shown as the character that PICO-8 shows for it, in both capital styles. -/
theorem C16_table {s : List Nat} (hs : ∀ c ∈ s, c < 256) :
    fromP8str false s = s.flatMap P8scii.text ∧ fromP8str true s = s.flatMap P8scii.caps := by
  have key : ∀ c : Fin 256, fromP8str false [c.1] = P8scii.text c.1 ∧ fromP8str true [c.1] = P8scii.caps c.1 := by decide +kernel
  have cons : ∀ u c t, fromP8str u (c :: t) = fromP8str u [c] ++ fromP8str u t := by
    intro u c t; simp [fromP8str]
  induction s with
  | nil => exact ⟨rfl, rfl⟩
  | cons c s ih =>
    obtain ⟨h1, h2⟩ := ih fun x hx => hs x (List.mem_cons_of_mem _ hx)
    obtain ⟨h3, h4⟩ := key ⟨c, hs c (by simp)⟩
    simp only at h3 h4
    rw [cons false c s, cons true c s, h1, h2, List.flatMap_cons, List.flatMap_cons, h3, h4]
    exact ⟨rfl, rfl⟩

end Verif
