import Verif.PodTextLemmas
/-! Parsing the tokens of a pod. -/
namespace Verif.PodText
open Verif.Pxu (UD)

set_option linter.unusedSectionVars false
variable {F : Type} [DecidableEq F] {fl : Floats F} {up : Unpod F} {sf : List Nat → List Nat}

theorem parse_num {neg : Bool} {s : List Nat} {v w : Val F} (hv : numVal fl s = some v) (hw : if neg then negVal fl v = some w else v = w)
    (fuel : Nat) (q : List UD) (r : List Tk) : parseVal fl up (fuel + 1) q (toksNum neg s ++ r) = some (w, q, r) := by
  cases neg with
  | false =>
    simp only [Bool.false_eq_true, if_false] at hw
    subst hw
    simp [toksNum, parseVal, hv]
  | true =>
    simp only [if_true] at hw
    simp [toksNum, parseVal, hv, hw]

theorem parse_int {v : Int} (h : IntOk v) (fuel : Nat) (q : List UD) (r : List Tk) :
    parseVal fl up (fuel + 1) q (toksInt v ++ r) = some (.int v, q, r) := by
  obtain ⟨h1, h2⟩ := h
  refine parse_num (numVal_digits fl (by omega)) ?_ fuel q r
  by_cases hv : v < 0
  · simp only [hv, decide_true, if_true, negVal, Option.some.injEq, Val.int.injEq]; omega
  · simp only [hv, decide_false, Bool.false_eq_true, if_false, Val.int.injEq]; omega

theorem parse_float {f : F} (h : FloatOk fl f) (fuel : Nat) (q : List UD) (r : List Tk) :
    parseVal fl up (fuel + 1) q (toksFloat fl f ++ r) = some (.float f, q, r) := by
  obtain ⟨g, hg, hn⟩ := h.back
  refine parse_num (v := .float g) ?_ ?_ fuel q r
  · simp [numVal, h.notInt, hg]
  · split <;> rename_i hs <;> simp only [hs, if_true] at hn <;> simp_all [negVal]

theorem parse_str (hd : Lits sf) (s : List Nat) (fuel : Nat) (q : List UD) (r : List Tk) :
    parseVal fl up (fuel + 1) q ((.string, sf s) :: r) = some (.str s, q, r) := by
  simp [parseVal, hd.back s]

theorem parse_bool (b : Bool) (fuel : Nat) (q : List UD) (r : List Tk) :
    parseVal fl up (fuel + 1) q (toksBool b ++ r) = some (.bool b, q, r) := by
  cases b <;> simp [toksBool, parseVal, fmtBool, txt]

theorem parseVal_ud (fuel : Nat) (q : List UD) (r : List Tk) :
    parseVal fl up (fuel + 1) q ((.ident, txt "userdata") :: (.punct, [40]) :: r) =
      (parseArgs fl up fuel q r).bind fun (args, q, r) => (udVal args q).map fun (v, q) => (v, q, r) := by
  simp [parseVal, isPunct]

theorem parse_call (fuel : Nat) (u : UD) (q : List UD) (r : List Tk) :
    parseVal fl up (fuel + 2) (u :: q) (toksCall ++ r) = some (.ud u, q, r) := by
  show parseVal fl up (fuel + 2) (u :: q) ((.ident, txt "userdata") :: (.punct, [40]) :: ((.punct, [41]) :: r)) = _
  rw [parseVal_ud]
  simp [parseArgs, isPunct, udVal]

/-- An argument followed by another one. -/
theorem more_next {fuel : Nat} {q : List UD} {a r : List Tk} {v : Val F} (h : parseVal fl up fuel q (a ++ (.punct, [44]) :: r) = some (v, q, (.punct, [44]) :: r)) :
    parseMore fl up (fuel + 1) q (a ++ (.punct, [44]) :: r) = (parseMore fl up fuel q r).map fun (vs, q, r) => (v :: vs, q, r) := by
  simp only [parseMore, h, Option.bind_some]
  simp [isPunct]

/-- The last argument. -/
theorem more_last {fuel : Nat} {q : List UD} {a r : List Tk} {v : Val F} (h : parseVal fl up fuel q (a ++ (.punct, [41]) :: r) = some (v, q, (.punct, [41]) :: r)) :
    parseMore fl up (fuel + 1) q (a ++ (.punct, [41]) :: r) = some ([v], q, r) := by
  simp only [parseMore, h, Option.bind_some]
  simp [isPunct]

theorem parse_ud (hd : Lits sf) {u : UD} (hw : IntOk u.width) (hh : IntOk u.height) (fuel : Nat) (q : List UD) (r : List Tk) :
    parseVal fl up (fuel + 7) q (toksUd sf u ++ r) = some (.ud u, q, r) := by
  have hdata : ∀ f, parseMore fl up (f + 2) q ((.string, sf u.data) :: (.punct, [41]) :: r) = some ([.str u.data], q, r) :=
    fun f => more_last (a := [(.string, sf u.data)]) (parse_str hd _ f q _)
  have hhead : ∀ (x : List Tk), (txt "userdata" ≠ []) → parseVal fl up (fuel + 7) q
      ((.ident, txt "userdata") :: (.punct, [40]) :: (.string, sf u.type) :: (.punct, [44]) :: x) =
      (((parseMore fl up (fuel + 4) q x).map fun (vs, q, r) => (.str u.type :: vs, q, r))).bind
        fun (args, q, r) => (udVal args q).map fun (v, q) => (v, q, r) := by
    intro x _
    rw [parseVal_ud, parseArgs]
    rw [if_neg (by simp [isPunct])]
    rw [show (TokKind.string, sf u.type) :: (TokKind.punct, [44]) :: x = [(TokKind.string, sf u.type)] ++ (TokKind.punct, [44]) :: x from rfl,
      more_next (parse_str hd _ _ q _)]
  have hassoc : toksUd sf u ++ r = (.ident, txt "userdata") :: (.punct, [40]) :: (.string, sf u.type) :: (.punct, [44]) ::
      (toksInt u.width ++ ((if u.height ≠ 0 then (.punct, [44]) :: toksInt u.height else []) ++
        ((.punct, [44]) :: (.string, sf u.data) :: (.punct, [41]) :: r))) := by
    simp [toksUd]
  rw [hassoc, hhead _ (by decide)]
  by_cases h0 : u.height = 0
  · rw [if_neg (by simp [h0]), List.nil_append, more_next (parse_int hw _ q _), hdata]
    simp only [Option.map_some, Option.bind_some, udVal]
    congr 2
    cases u; simp_all
  · rw [if_pos (by simp [h0]), List.cons_append, more_next (parse_int hw _ q _), more_next (parse_int hh _ q _), hdata]
    simp only [Option.map_some, Option.bind_some, udVal]

theorem parse_key (hd : Lits sf) {k : Key F} (hk : k.Ok fl) (fuel : Nat) (q : List UD) (r : List Tk) :
    ∃ kv, parseVal fl up (fuel + 1) q (toksKey fl sf k ++ r) = some (kv, q, r) ∧
      ∀ v (t : Items F), v.isNil = false → putVal fl kv v t = some (t.put fl k v) := by
  cases k with
  | bool b => exact ⟨.bool b, parse_bool b fuel q r, fun v t hv => by cases v <;> simp_all [putVal, Val.isNil]⟩
  | int i => exact ⟨.int i, parse_int hk fuel q r, fun v t hv => by cases v <;> simp_all [putVal, Val.isNil]⟩
  | float f => exact ⟨.float f, parse_float hk.1 fuel q r, fun v t hv => by cases v <;> simp_all [putVal, Val.isNil]⟩
  | str s => exact ⟨.str s, parse_str hd s fuel q r, fun v t hv => by cases v <;> simp_all [putVal, Val.isNil]⟩

/-- The first token of a value. -/
theorem toksVal_head (b : UD → Bool) (v : Val F) : ∃ t r, toksVal fl sf b v = t :: r ∧ (∀ x, isPunct [125] (t :: x) = false) ∧
    (∀ x, isPunct [91] (t :: x) = false) ∧ (∀ x, r.head? = some x → isPunct [61] [x] = false) := by
  cases v with
  | nil => exact ⟨_, _, by rw [toksVal], by intro x; rfl, by intro x; rfl, by simp⟩
  | bool b => exact ⟨_, _, by rw [toksVal, toksBool], by intro x; rfl, by intro x; rfl, by simp⟩
  | int i =>
    rw [toksVal, toksInt, toksNum]
    split
    · exact ⟨_, _, rfl, by intro x; rfl, by intro x; rfl, by intro x hx; cases hx; rfl⟩
    · exact ⟨_, _, rfl, by intro x; rfl, by intro x; rfl, by simp⟩
  | float f =>
    rw [toksVal, toksFloat, toksNum]
    split
    · exact ⟨_, _, rfl, by intro x; rfl, by intro x; rfl, by intro x hx; cases hx; rfl⟩
    · exact ⟨_, _, rfl, by intro x; rfl, by intro x; rfl, by simp⟩
  | str s => exact ⟨_, _, by rw [toksVal], by intro x; rfl, by intro x; rfl, by simp⟩
  | ud u =>
    rw [toksVal]
    split
    · exact ⟨_, _, rfl, by intro x; rfl, by intro x; rfl, by intro x hx; cases hx; rfl⟩
    · exact ⟨_, _, rfl, by intro x; rfl, by intro x; rfl, by intro x hx; cases hx; rfl⟩
  | table t =>
    rw [toksVal]
    refine ⟨_, _, rfl, by intro x; rfl, by intro x; rfl, ?_⟩
    intro x hx
    cases t with
    | nil => rw [toksItems] at hx; simp [toksCommas] at hx; subst hx; rfl
    | cons k v t =>
      rw [toksItems] at hx
      split at hx
      · rw [toksCommas] at hx
        revert hx
        cases v with
        | nil => rw [toksVal]; intro hx; cases hx; rfl
        | bool b => rw [toksVal, toksBool]; intro hx; cases hx; rfl
        | int i => rw [toksVal, toksInt, toksNum]; split <;> (intro hx; cases hx; rfl)
        | float i => rw [toksVal, toksFloat, toksNum]; split <;> (intro hx; cases hx; rfl)
        | str s => rw [toksVal]; intro hx; cases hx; rfl
        | ud u => rw [toksVal]; split <;> (intro hx; cases hx; rfl)
        | table t => rw [toksVal]; intro hx; cases hx; rfl
      · rw [toksCommas] at hx
        revert hx
        cases k with
        | bool b => intro hx; cases hx; rfl
        | int b => intro hx; cases hx; rfl
        | float b => intro hx; cases hx; rfl
        | str s => rw [toksHead]; split <;> (intro hx; cases hx; rfl)

/-! ### Entries -/

def Items.append : Items F → Items F → Items F
  | .nil, t => t
  | .cons k v r, t => .cons k v (r.append t)

theorem Items.append_nil : ∀ t : Items F, t.append .nil = t
  | .nil => rfl
  | .cons k v r => by rw [Items.append, Items.append_nil r]

theorem Items.append_assoc : ∀ a b c : Items F, (a.append b).append c = a.append (b.append c)
  | .nil, _, _ => rfl
  | .cons k v r, b, c => by simp only [Items.append, Items.append_assoc r b c]

theorem Items.keys_append : ∀ a b : Items F, (a.append b).keys = a.keys ++ b.keys
  | .nil, _ => rfl
  | .cons k v r, b => by simp [Items.append, Items.keys, Items.keys_append r b]

/-- A new key is put at the end. -/
theorem Items.put_new (k : Key F) (v : Val F) : ∀ t : Items F, (∀ k' ∈ t.keys, k'.norm fl ≠ k.norm fl) →
    t.put fl k v = t.append (.cons k v .nil)
  | .nil, _ => rfl
  | .cons k' v' r, h => by
    rw [Items.put, if_neg (h k' (by simp [Items.keys])), Items.append, Items.put_new k v r (fun x hx => h x (by simp [Items.keys, hx]))]

theorem putSome_some (k : Key F) {v : Val F} (hv : v.isNil = false) (t : Items F) : putSome fl k v t = t.put fl k v := by
  cases v <;> first | rfl | simp [Val.isNil] at hv

/-- The tokens that can follow a value in a table. -/
def Next (r : List Tk) : Prop := isPunct [61] r = false

/-- An entry with its key. -/
theorem parse_keyed (hd : Lits sf) {k : Key F} (hk : k.Ok fl) {v : Val F} (hv : v.isNil = false) {vt r : List Tk} {q q' : List UD} {fuel : Nat}
    (hp : parseVal fl up (fuel + 1) q (vt ++ r) = some (v, q', r)) (t : Items F) (i : Int) :
    parseItems fl up (fuel + 2) q t i (toksHead fl sf k ++ vt ++ r) = parseSep fl up (fuel + 1) q' (t.put fl k v) i r := by
  have hbr : ∀ k : Key F, k.Ok fl → parseItems fl up (fuel + 2) q t i (toksBracket fl sf k ++ vt ++ r) =
      parseSep fl up (fuel + 1) q' (t.put fl k v) i r := by
    intro k hk
    have e : toksBracket fl sf k ++ vt ++ r = (.punct, [91]) :: (toksKey fl sf k ++ ((.punct, [93]) :: (.punct, [61]) :: (vt ++ r))) := by
      simp [toksBracket]
    obtain ⟨kv, h1, h2⟩ := parse_key (up := up) hd hk fuel q ((.punct, [93]) :: (.punct, [61]) :: (vt ++ r))
    rw [e]
    simp only [parseItems]
    rw [if_neg (by simp [isPunct]), if_pos (by simp [isPunct]), List.drop_succ_cons, List.drop_zero, h1]
    simp only [Option.bind_some]
    rw [if_pos (by simp [isPunct])]
    simp only [List.drop_succ_cons, List.drop_zero, hp, Option.bind_some, h2 v t hv]
  cases k with
  | bool b => exact hbr _ hk
  | int b => exact hbr _ hk
  | float b => exact hbr _ hk
  | str s =>
    simp only [toksHead]
    split
    · simp only [List.cons_append, List.nil_append, parseItems]
      rw [if_neg (by simp [isPunct]), if_neg (by simp [isPunct]), if_pos (by simp [isPunct])]
      simp only [List.drop_succ_cons, List.drop_zero, hp, Option.bind_some, putSome_some _ hv]
    · exact hbr _ hk

/-- A positional entry. -/
theorem parse_positional {b : UD → Bool} {v : Val F} (hv : v.isNil = false) {r : List Tk} (hr : Next r) {q q' : List UD} {fuel : Nat}
    (hp : parseVal fl up (fuel + 1) q (toksVal fl sf b v ++ r) = some (v, q', r)) (t : Items F) (i : Int) :
    parseItems fl up (fuel + 2) q t i (toksVal fl sf b v ++ r) = parseSep fl up (fuel + 1) q' (t.put fl (.int i) v) (i + 1) r := by
  obtain ⟨x, y, hxy, h1, h2, h3⟩ := toksVal_head (fl := fl) (sf := sf) b v
  have h61 : isPunct [61] ((toksVal fl sf b v ++ r).drop 1) = false := by
    rw [hxy]
    simp only [List.cons_append, List.drop_succ_cons, List.drop_zero]
    cases y with
    | nil => exact hr
    | cons z y =>
      have := h3 z rfl
      obtain ⟨zk, zs⟩ := z
      cases zk <;> simp_all [isPunct]
  rw [parseItems.eq_def]
  dsimp only
  rw [if_neg (by rw [hxy, List.cons_append, h1]; simp), if_neg (by rw [hxy, List.cons_append, h2]; simp), if_neg (by rw [h61]; simp), hp]
  simp only [Option.bind_some, putSome_some _ hv]

theorem toksTail_length (l : List (List Tk)) : (toksTail l).length ≤ (toksCommas l).length + 1 := by
  cases l <;> simp [toksTail, toksCommas]

/-- What a positional key is. -/
theorem norm_index {k : Key F} (hk : k.Ok fl) {i : Int} (hi : 1 ≤ i) (h : k.norm fl = .int i) : k = .int i := by
  cases k with
  | bool b =>
    have hb : b = false := hk
    subst hb
    simp only [Key.norm, Bool.false_eq_true, if_false, Key.int.injEq] at h
    omega
  | int v => exact h
  | float f => simp [Key.norm, hk.2] at h
  | str s => simp [Key.norm] at h

theorem next_tail (l : List (List Tk)) (r : List Tk) : Next (toksTail l ++ (.punct, [125]) :: r) := by
  cases l <;> simp [toksTail, Next, isPunct]

mutual
/-- The tokens of a value are parsed to the value. -/
theorem parse_val (hd : Lits sf) (b : UD → Bool) : ∀ (v : Val F), v.Ok fl → ∀ (fuel : Nat), 3 * (toksVal fl sf b v).length ≤ fuel →
    ∀ (q : List UD) (r : List Tk), parseVal fl up fuel (v.taken b ++ q) (toksVal fl sf b v ++ r) = some (v, q, r)
  | .nil, _, fuel, hf, q, r => by
    rw [toksVal] at hf ⊢
    obtain ⟨f, rfl⟩ := Nat.exists_eq_add_of_lt (show 0 < fuel by simp at hf; omega)
    simp [parseVal, Val.taken]
  | .bool x, _, fuel, hf, q, r => by
    rw [toksVal] at hf ⊢
    obtain ⟨f, rfl⟩ : ∃ f, fuel = f + 1 := ⟨fuel - 1, by simp [toksBool] at hf; omega⟩
    simp only [Val.taken, List.nil_append]; exact parse_bool x f q r
  | .int i, h, fuel, hf, q, r => by
    rw [toksVal] at hf ⊢
    rw [Val.Ok] at h
    obtain ⟨f, rfl⟩ : ∃ f, fuel = f + 1 := ⟨fuel - 1, by
      have : 0 < (toksInt i).length := by unfold toksInt toksNum; split <;> simp
      omega⟩
    simp only [Val.taken, List.nil_append]; exact parse_int h f q r
  | .float x, h, fuel, hf, q, r => by
    rw [toksVal] at hf ⊢
    rw [Val.Ok] at h
    obtain ⟨f, rfl⟩ : ∃ f, fuel = f + 1 := ⟨fuel - 1, by
      have : 0 < (toksFloat fl x).length := by unfold toksFloat toksNum; split <;> simp
      omega⟩
    simp only [Val.taken, List.nil_append]; exact parse_float h f q r
  | .str s, _, fuel, hf, q, r => by
    rw [toksVal] at hf ⊢
    obtain ⟨f, rfl⟩ : ∃ f, fuel = f + 1 := ⟨fuel - 1, by simp at hf; omega⟩
    simp only [Val.taken, List.nil_append]; exact parse_str hd s f q r
  | .ud u, h, fuel, hf, q, r => by
    rw [toksVal] at hf ⊢
    rw [Val.Ok] at h
    rw [Val.taken]
    split
    · rename_i hb
      rw [if_pos hb] at hf
      obtain ⟨f, rfl⟩ : ∃ f, fuel = f + 2 := ⟨fuel - 2, by simp [toksCall] at hf; omega⟩
      exact parse_call f u q r
    · rename_i hb
      rw [if_neg hb] at hf
      obtain ⟨f, rfl⟩ : ∃ f, fuel = f + 7 := ⟨fuel - 7, by simp [toksUd] at hf; omega⟩
      exact parse_ud hd h.1 h.2 f q r
  | .table .nil, _, fuel, hf, q, r => by
    rw [toksVal, toksItems] at hf ⊢
    obtain ⟨f, rfl⟩ : ∃ f, fuel = f + 2 := ⟨fuel - 2, by simp at hf; omega⟩
    rw [Val.taken, Items.taken]
    simp [toksCommas, parseVal, parseItems, isPunct]
  | .table (.cons k v t), h, fuel, hf, q, r => by
    rw [Val.Ok, Items.Ok] at h
    obtain ⟨h1, h2, h3, h4, h5⟩ := h
    rw [toksVal, toksItems] at hf ⊢
    rw [Val.taken, Items.taken]
    obtain ⟨f, rfl⟩ : ∃ f, fuel = f + 3 := ⟨fuel - 3, by simp at hf; omega⟩
    have key : ∀ (x : List Tk), parseVal fl up (f + 3) (v.taken b ++ t.taken b ++ q) ((.punct, [123]) :: x) =
        (parseItems fl up (f + 2) (v.taken b ++ t.taken b ++ q) .nil 1 x).map fun (t, q, r) => (.table t, q, r) := by
      intro x; simp [parseVal]
    split
    · rename_i hk
      rw [if_pos hk] at hf
      have hki := norm_index h1 (by omega) hk
      have hlen := hf
      simp only [toksCommas, List.length_cons, List.length_append, List.length_nil] at hlen
      rw [toksCommas, List.cons_append, key]
      rw [show toksVal fl sf b v ++ toksTail (toksItems fl sf b (1 + 1) t) ++ [(TokKind.punct, [125])] ++ r =
        toksVal fl sf b v ++ (toksTail (toksItems fl sf b (1 + 1) t) ++ (TokKind.punct, [125]) :: r) by simp]
      rw [parse_positional h2 (next_tail _ _) (q' := t.taken b ++ q) (by rw [List.append_assoc]; exact parse_val hd b v h3 (f + 1) (by omega) (t.taken b ++ q) _)]
      rw [parse_tail hd b t h5 (f + 1) _ (by omega) (by omega) _ (by
        intro a ha c hc
        simp only [Items.put, Items.keys, List.mem_cons, List.not_mem_nil, or_false] at ha
        rw [ha, ← hki]
        exact fun e => h4 c hc e.symm)]
      rw [hki]
      rfl
    · rename_i hk
      rw [if_neg hk] at hf
      have hlen := hf
      simp only [toksCommas, List.length_cons, List.length_append, List.length_nil] at hlen
      rw [toksCommas, List.cons_append, key]
      rw [show toksHead fl sf k ++ toksVal fl sf b v ++ toksTail (toksItems fl sf b 1 t) ++ [(TokKind.punct, [125])] ++ r =
        toksHead fl sf k ++ toksVal fl sf b v ++ (toksTail (toksItems fl sf b 1 t) ++ (TokKind.punct, [125]) :: r) by simp]
      rw [parse_keyed hd h1 h2 (q' := t.taken b ++ q) (by rw [List.append_assoc]; exact parse_val hd b v h3 (f + 1) (by omega) (t.taken b ++ q) _)]
      rw [parse_tail hd b t h5 (f + 1) _ (by omega) (by omega) _ (by
        intro a ha c hc
        simp only [Items.put, Items.keys, List.mem_cons, List.not_mem_nil, or_false] at ha
        rw [ha]
        exact fun e => h4 c hc e.symm)]
      rfl
theorem parse_tail (hd : Lits sf) (b : UD → Bool) : ∀ (t : Items F), t.Ok fl → ∀ (fuel : Nat) (i : Int),
    3 * (toksTail (toksItems fl sf b i t)).length + 1 ≤ fuel → 1 ≤ i →
    ∀ (acc : Items F), (∀ a ∈ acc.keys, ∀ c ∈ t.keys, a.norm fl ≠ c.norm fl) → ∀ {q : List UD} {r : List Tk},
      parseSep fl up fuel (t.taken b ++ q) acc i (toksTail (toksItems fl sf b i t) ++ (.punct, [125]) :: r) = some (acc.append t, q, r)
  | .nil, _, fuel, i, hf, _, acc, _, q, r => by
    obtain ⟨f, rfl⟩ : ∃ f, fuel = f + 1 := ⟨fuel - 1, by omega⟩
    rw [toksItems, Items.taken, Items.append_nil]
    simp [toksTail, parseSep, isPunct]
  | .cons k v t, h, fuel, i, hf, hi, acc, hacc, q, r => by
    rw [Items.Ok] at h
    obtain ⟨h1, h2, h3, h4, h5⟩ := h
    rw [toksItems] at hf ⊢
    rw [Items.taken]
    obtain ⟨f, rfl⟩ : ∃ f, fuel = f + 3 := ⟨fuel - 3, by
      by_cases hk : k.norm fl = .int i
      · rw [if_pos hk] at hf; simp [toksTail] at hf; omega
      · rw [if_neg hk] at hf; simp [toksTail] at hf; omega⟩
    have key : ∀ (x : List Tk), parseSep fl up (f + 3) (v.taken b ++ t.taken b ++ q) acc i ((.punct, [44]) :: x) =
        parseItems fl up (f + 2) (v.taken b ++ t.taken b ++ q) acc i x := by
      intro x; simp [parseSep, isPunct]
    have hnew : ∀ a ∈ acc.keys, a.norm fl ≠ k.norm fl := fun a ha => hacc a ha k (by simp [Items.keys])
    have hacc' : ∀ a ∈ (acc.append (.cons k v .nil)).keys, ∀ c ∈ t.keys, a.norm fl ≠ c.norm fl := by
      intro a ha c hc
      rw [Items.keys_append, List.mem_append] at ha
      rcases ha with ha | ha
      · exact hacc a ha c (by simp [Items.keys, hc])
      · simp only [Items.keys, List.mem_cons, List.not_mem_nil, or_false] at ha
        rw [ha]; exact fun e => h4 c hc e.symm
    split
    · rename_i hk
      rw [if_pos hk] at hf
      have hki := norm_index h1 hi hk
      have hlen := hf
      simp only [toksTail, List.length_cons, List.length_append] at hlen
      rw [toksTail, List.cons_append, key, List.append_assoc (toksVal fl sf b v),
        parse_positional h2 (next_tail _ _) (q' := t.taken b ++ q) (by rw [List.append_assoc]; exact parse_val hd b v h3 (f + 1) (by omega) (t.taken b ++ q) _)]
      rw [← hki, Items.put_new _ _ _ hnew, parse_tail hd b t h5 (f + 1) _ (by omega) (by omega) _ hacc', Items.append_assoc]
      rfl
    · rename_i hk
      rw [if_neg hk] at hf
      have hlen := hf
      simp only [toksTail, List.length_cons, List.length_append] at hlen
      rw [toksTail, List.cons_append, key, List.append_assoc (toksHead fl sf k ++ toksVal fl sf b v),
        parse_keyed hd h1 h2 (q' := t.taken b ++ q) (by rw [List.append_assoc]; exact parse_val hd b v h3 (f + 1) (by omega) (t.taken b ++ q) _)]
      rw [Items.put_new _ _ _ hnew, parse_tail hd b t h5 (f + 1) _ (by omega) hi _ hacc', Items.append_assoc]
      rfl
end

end Verif.PodText
