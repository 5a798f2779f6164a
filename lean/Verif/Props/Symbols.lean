import Verif.Props.Lex
import Verif.Spec.LuaOps
import Mathlib.Tactic.SplitIfs
/-
C30: the symbols of the language are the tokens.
-/
namespace Verif

/-- The symbols, as lists of numbers. -/
theorem symbols_eq : LuaOps.symbols true = [[43], [45], [42], [47], [92], [37], [94], [94, 94], [38], [124], [126], [60, 60], [62, 62], [46, 46], [46, 46, 46], [35], [64], [36], [63],
    [61, 61], [126, 61], [33, 61], [60], [60, 61], [62], [62, 61], [61], [40], [41], [123], [125], [91], [93], [58], [58, 58], [59], [44], [46],
    [43, 61], [45, 61], [42, 61], [47, 61], [92, 61], [37, 61], [94, 61], [94, 94, 61], [38, 61], [124, 61], [60, 60, 61], [62, 62, 61], [46, 46, 61],
    [62, 62, 62], [60, 60, 62], [62, 62, 60], [62, 62, 62, 61], [60, 60, 62, 61], [62, 62, 60, 61]] ∧
  LuaOps.symbols false = [[43], [45], [42], [47], [92], [37], [94], [94, 94], [38], [124], [126], [60, 60], [62, 62], [46, 46], [46, 46, 46], [35], [64], [36], [63],
    [61, 61], [126, 61], [33, 61], [60], [60, 61], [62], [62, 61], [61], [40], [41], [123], [125], [91], [93], [58], [58, 58], [59], [44], [46],
    [43, 61], [45, 61], [42, 61], [47, 61], [92, 61], [37, 61], [94, 61], [94, 94, 61], [38, 61], [124, 61], [60, 60, 61], [62, 62, 61], [46, 46, 61],
    [47, 47], [47, 47, 61]] := by decide +kernel

/-- The symbols that start with a character. -/
def starting (p8 : Bool) (c : Nat) : List (List Nat) := (LuaOps.symbols p8).filter (·.head? == some c)

theorem starting_iff {p8 : Bool} {c : Nat} {r t : List Nat} (h : t ∈ starting p8 c ∧ ∀ o ∈ starting p8 c, o <+: c :: r → o.length ≤ t.length) :
    t ∈ LuaOps.symbols p8 ∧ ∀ o ∈ LuaOps.symbols p8, o <+: c :: r → o.length ≤ t.length := by
  refine ⟨(List.mem_filter.1 h.1).1, fun o ho hp => ?_⟩
  cases o with
  | nil => simp
  | cons d o =>
    refine h.2 _ (List.mem_filter.2 ⟨ho, ?_⟩) hp
    simp [(List.cons_prefix_cons.1 hp).1]


theorem punct_longest (p8 : Bool) (c : Nat) (r : List Nat) (hc : c ∈ punctChars) (h : ¬ (p8 = true ∧ c = 47 ∧ r.head? = some 47)) :
    (c :: r).take (punctLen p8 c r) ∈ starting p8 c ∧ ∀ o ∈ starting p8 c, o <+: c :: r → o.length ≤ ((c :: r).take (punctLen p8 c r)).length := by

  simp only [punctChars, List.mem_cons, List.not_mem_nil, or_false] at hc
  cases p8 <;> rcases hc with rfl|rfl|rfl|rfl|rfl|rfl|rfl|rfl|rfl|rfl|rfl|rfl|rfl|rfl|rfl|rfl|rfl|rfl|rfl|rfl|rfl|rfl|rfl|rfl|rfl|rfl|rfl <;>
    simp [starting, symbols_eq, punctLen] 
  all_goals (rcases r with _ | ⟨a, _ | ⟨b, _ | ⟨d, r⟩⟩⟩ <;> simp at h ⊢)
  all_goals split_ifs <;> simp_all
  all_goals omega


/-- Every symbol is one token. -/
theorem C30_symbols (p8 : Bool) (o : List Nat) (h : o ∈ LuaOps.symbols p8) : lexAll p8 o = some [(.punct, o)] := by
  have : ∀ p8 : Bool, (LuaOps.symbols p8).all (fun o => lexAll p8 o == some [(.punct, o)]) = true := by decide +kernel
  simpa using List.all_eq_true.1 (this p8) o h

/-- In any text, what is taken for a symbol is the longest symbol of the language that is there. -/
theorem C30_longest_symbol (p8 : Bool) (s t rest : List Nat) (h : lexStep p8 s = .tok .punct t rest) :
    s = t ++ rest ∧ t ∈ LuaOps.symbols p8 ∧ ∀ o ∈ LuaOps.symbols p8, o <+: s → o.length ≤ t.length := by
  cases s with
  | nil => simp [lexStep] at h
  | cons c r =>
    cases hc : lexClass p8 c r.head? <;> simp only [lexStep, hc, lexComment] at h
    case space => cases h
    case num => simp [cutTok] at h
    case ident => simp only [cutTok] at h; split at h <;> simp at h
    case str => split at h <;> simp [cutTok] at h
    case long => split at h <;> simp [cutTok] at h
    case comment => split at h <;> try (split at h)
                    all_goals simp at h
    case lineComment => cases h
    case bad => cases h
    case punct =>
      simp only [cutTok, LexStep.tok.injEq, true_and] at h
      obtain ⟨rfl, rfl⟩ := h
      refine ⟨by rw [List.take_append_drop], starting_iff (punct_longest p8 c r ?_ ?_)⟩
      · simp only [lexClass] at hc
        split_ifs at hc
        rename_i h
        simpa using h
      · rintro ⟨rfl, rfl, h3⟩
        simp [lexClass, h3, isWspace, isDigit, isIdentChar] at hc
    case notEq =>
      simp only [cutTok, LexStep.tok.injEq, true_and] at h
      obtain ⟨rfl, rfl⟩ := h
      have : c = 33 ∧ r.head? = some 61 := by
        simp only [lexClass] at hc
        split_ifs at hc
        rename_i h
        simpa using h
      obtain ⟨rfl, hr⟩ := this
      cases r with
      | nil => simp at hr
      | cons a r =>
        simp only [List.head?_cons, Option.some.injEq] at hr
        subst hr
        refine ⟨by simp, starting_iff ?_⟩
        cases p8 <;> simp [starting, symbols_eq]

-- >>>=x and <<>1; a dot before a digit belongs to the number
example : lexStep true [62, 62, 62, 61, 120] = .tok .punct [62, 62, 62, 61] [120] ∧ lexStep true [60, 60, 62, 49] = .tok .punct [60, 60, 62] [49] ∧
    lexStep false [62, 62, 62, 61, 120] = .tok .punct [62, 62] [62, 61, 120] := by decide +kernel

end Verif
