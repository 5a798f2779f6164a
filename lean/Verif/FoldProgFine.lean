import Verif.FoldProgSim
import Verif.Spec.LuaStatic
/-
Helpers for C74: the conditions under which the two runs can be compared follow from static properties of the program.
-/
namespace Verif.Core
open Spec

variable {c : Fold} {G : Nat → Option LV}

/-! ### The constants recorded for all declarations -/

def noted : List Nat → List Bool → List (Option LV) → List (Nat × Option LV)
  | x :: xs, m :: ms, ks => (x, if m then ks.headD (some .nil) else none) :: noted xs ms ks.tail
  | _, _, _ => []

def never (xs : List Nat) : List (Nat × Option LV) := xs.map fun x => (x, none)

mutual
def Ex.consts (c : Fold) (Γ : Nat → Option LV) : Ex → List (Nat × Option LV)
  | .const _ => []
  | .var _ => []
  | .dots => []
  | .group e => e.consts c Γ
  | .un _ e => e.consts c Γ
  | .bin _ l r => l.consts c Γ ++ r.consts c Γ
  | .builtin _ es => constsEs c Γ es
  | .call f es => f.consts c Γ ++ constsEs c Γ es
  | .index e k => e.consts c Γ ++ k.consts c Γ
  | .op _ _ es => constsEs c Γ es
  | .func ps _ b => never ps ++ constsBl c (forget Γ ps) b
def constsEs (c : Fold) (Γ : Nat → Option LV) : List Ex → List (Nat × Option LV)
  | [] => []
  | e :: es => e.consts c Γ ++ constsEs c Γ es
def St.consts (c : Fold) (Γ : Nat → Option LV) : St → List (Nat × Option LV)
  | .locals xs es => constsEs c Γ es ++ match c.exs Γ es with
    | some p => noted xs (c.marks xs p.1 p.2) p.2
    | none => []
  | .localFn x ps _ b => (x, none) :: never ps ++ constsBl c (forget (forget Γ [x]) ps) b
  | .assign ts es => constsTs c Γ ts ++ constsEs c Γ es
  | .eval e => e.consts c Γ
  | .ret es => constsEs c Γ es
  | .brk => []
  | .doB b => constsBl c Γ b
  | .whileS e b => e.consts c Γ ++ constsBl c Γ b
  | .repeatS b e => constsBl c Γ b ++ match c.bl Γ b with
    | some p => e.consts c p.1
    | none => []
  | .forNum x es b => constsEs c Γ es ++ (x, none) :: constsBl c (forget Γ [x]) b
  | .forIn xs es b => constsEs c Γ es ++ never xs ++ constsBl c (forget Γ xs) b
  | .ifS e t f => e.consts c Γ ++ constsBl c Γ t ++ f.consts c Γ
def constsBl (c : Fold) (Γ : Nat → Option LV) : List St → List (Nat × Option LV)
  | [] => []
  | s :: b => s.consts c Γ ++ match c.st Γ s with
    | some p => constsBl c p.1 b
    | none => []
def El.consts (c : Fold) (Γ : Nat → Option LV) : El → List (Nat × Option LV)
  | .none => []
  | .else_ b => constsBl c Γ b
  | .elseif e t f => e.consts c Γ ++ constsBl c Γ t ++ f.consts c Γ
def Tg.consts (c : Fold) (Γ : Nat → Option LV) : Tg → List (Nat × Option LV)
  | .loc _ => []
  | .put _ es => constsEs c Γ es
def constsTs (c : Fold) (Γ : Nat → Option LV) : List Tg → List (Nat × Option LV)
  | [] => []
  | t :: ts => t.consts c Γ ++ constsTs c Γ ts
end

theorem noted_names : ∀ (xs : List Nat) (ms : List Bool) (ks : List (Option LV)), ms.length = xs.length → (noted xs ms ks).map (·.1) = xs
  | [], _, _, _ => by simp [noted]
  | x :: xs, [], _, h => by simp at h
  | x :: xs, m :: ms, ks, h => by simp [noted, noted_names xs ms ks.tail (by simpa using h)]

theorem never_names (xs : List Nat) : (never xs).map (·.1) = xs := by simp [never, Function.comp_def]

theorem marks_len (xs : List Nat) (es : List Ex) (ks : List (Option LV)) : (c.marks xs es ks).length = xs.length := by
  simp [Fold.marks, marks_length]

mutual
theorem Ex.consts_sub : ∀ (e : Ex) (Γ : Nat → Option LV), List.Sublist ((e.consts c Γ).map (·.1)) e.declared
  | .const _, _ => by simp [Ex.consts]
  | .var _, _ => by simp [Ex.consts]
  | .dots, _ => by simp [Ex.consts]
  | .group e, Γ => by simp only [Ex.consts, Ex.declared]; exact e.consts_sub Γ
  | .un _ e, Γ => by simp only [Ex.consts, Ex.declared]; exact e.consts_sub Γ
  | .bin _ l r, Γ => by simp only [Ex.consts, Ex.declared, List.map_append]; exact (l.consts_sub Γ).append (r.consts_sub Γ)
  | .builtin _ es, Γ => by simp only [Ex.consts, Ex.declared]; exact constsEs_sub es Γ
  | .call f es, Γ => by simp only [Ex.consts, Ex.declared, List.map_append]; exact (f.consts_sub Γ).append (constsEs_sub es Γ)
  | .index e k, Γ => by simp only [Ex.consts, Ex.declared, List.map_append]; exact (e.consts_sub Γ).append (k.consts_sub Γ)
  | .op _ _ es, Γ => by simp only [Ex.consts, Ex.declared]; exact constsEs_sub es Γ
  | .func ps _ b, Γ => by
    simp only [Ex.consts, Ex.declared, List.map_append, never_names]; exact (List.Sublist.refl ps).append (constsBl_sub b _)
theorem constsEs_sub : ∀ (es : List Ex) (Γ : Nat → Option LV), List.Sublist ((constsEs c Γ es).map (·.1)) (declaredEs es)
  | [], _ => by simp [constsEs]
  | e :: es, Γ => by simp only [constsEs, declaredEs, List.map_append]; exact (e.consts_sub Γ).append (constsEs_sub es Γ)
theorem St.consts_sub : ∀ (s : St) (Γ : Nat → Option LV), List.Sublist ((s.consts c Γ).map (·.1)) s.declared
  | .locals xs es, Γ => by
    simp only [St.consts, St.declared, List.map_append]
    refine (constsEs_sub es Γ).append ?_
    split
    · rw [noted_names _ _ _ (marks_len _ _ _)]; exact List.Sublist.refl xs
    · simp
  | .localFn x ps _ b, Γ => by
    simp only [St.consts, St.declared, List.map_append, List.map_cons, List.cons_append, never_names]
    exact ((List.Sublist.refl ps).append (constsBl_sub b _)).cons_cons x
  | .assign ts es, Γ => by simp only [St.consts, St.declared, List.map_append]; exact (constsTs_sub ts Γ).append (constsEs_sub es Γ)
  | .eval e, Γ => by simp only [St.consts, St.declared]; exact e.consts_sub Γ
  | .ret es, Γ => by simp only [St.consts, St.declared]; exact constsEs_sub es Γ
  | .brk, _ => by simp [St.consts]
  | .doB b, Γ => by simp only [St.consts, St.declared]; exact constsBl_sub b Γ
  | .whileS e b, Γ => by simp only [St.consts, St.declared, List.map_append]; exact (e.consts_sub Γ).append (constsBl_sub b Γ)
  | .repeatS b e, Γ => by
    simp only [St.consts, St.declared, List.map_append]
    refine (constsBl_sub b Γ).append ?_
    split
    · exact e.consts_sub _
    · simp
  | .forNum x es b, Γ => by
    simp only [St.consts, St.declared, List.map_append, List.map_cons]; exact (constsEs_sub es Γ).append ((constsBl_sub b _).cons_cons x)
  | .forIn xs es b, Γ => by
    simp only [St.consts, St.declared, List.map_append, never_names]
    exact ((constsEs_sub es Γ).append (List.Sublist.refl xs)).append (constsBl_sub b _)
  | .ifS e t f, Γ => by
    simp only [St.consts, St.declared, List.map_append]; exact ((e.consts_sub Γ).append (constsBl_sub t Γ)).append (f.consts_sub Γ)
theorem constsBl_sub : ∀ (b : List St) (Γ : Nat → Option LV), List.Sublist ((constsBl c Γ b).map (·.1)) (declaredBl b)
  | [], _ => by simp [constsBl]
  | s :: b, Γ => by
    simp only [constsBl, declaredBl, List.map_append]
    refine (s.consts_sub Γ).append ?_
    split
    · exact constsBl_sub b _
    · simp
theorem El.consts_sub : ∀ (e : El) (Γ : Nat → Option LV), List.Sublist ((e.consts c Γ).map (·.1)) e.declared
  | .none, _ => by simp [El.consts]
  | .else_ b, Γ => by simp only [El.consts, El.declared]; exact constsBl_sub b Γ
  | .elseif e t f, Γ => by
    simp only [El.consts, El.declared, List.map_append]; exact ((e.consts_sub Γ).append (constsBl_sub t Γ)).append (f.consts_sub Γ)
theorem Tg.consts_sub : ∀ (t : Tg) (Γ : Nat → Option LV), List.Sublist ((t.consts c Γ).map (·.1)) t.declared
  | .loc _, _ => by simp [Tg.consts]
  | .put _ es, Γ => by simp only [Tg.consts, Tg.declared]; exact constsEs_sub es Γ
theorem constsTs_sub : ∀ (ts : List Tg) (Γ : Nat → Option LV), List.Sublist ((constsTs c Γ ts).map (·.1)) (declaredTs ts)
  | [], _ => by simp [constsTs]
  | t :: ts, Γ => by simp only [constsTs, declaredTs, List.map_append]; exact (t.consts_sub Γ).append (constsTs_sub ts Γ)
end

/-- What is reassigned has no constant. -/
theorem noted_reassigned (chars many : Bool) : ∀ (xs : List Nat) (ks : List (Option LV)),
    ∀ q ∈ noted xs (Verif.marks chars many (xs.map c.target) ks) ks, 0 < c.reassigned q.1 → q.2 = none
  | [], ks, q, h, _ => by simp [noted] at h
  | x :: xs, [], q, h, hr => by
    simp only [List.map_cons, Verif.marks, noted, List.mem_cons, List.tail_nil] at h
    rcases h with rfl | h
    · have : (c.target x).canErase = false := by
        simp only [Fold.target, AssignTarget.canErase]
        have : (c.reassigned x == 0) = false := by simpa using Nat.pos_iff_ne_zero.mp hr
        simp [this]
      simp [this]
    · exact noted_reassigned chars many xs [] q h hr
  | x :: xs, k :: ks, q, h, hr => by
    simp only [List.map_cons, Verif.marks, noted, List.mem_cons, List.tail_cons] at h
    rcases h with rfl | h
    · have : (c.target x).canErase = false := by
        simp only [Fold.target, AssignTarget.canErase]
        have : (c.reassigned x == 0) = false := by simpa using Nat.pos_iff_ne_zero.mp hr
        simp [this]
      simp [this]
    · exact noted_reassigned chars many xs ks q h hr

theorem never_none {xs : List Nat} {q : Nat × Option LV} (h : q ∈ never xs) : q.2 = none := by
  simp only [never, List.mem_map] at h
  obtain ⟨x, _, rfl⟩ := h
  rfl

mutual
theorem Ex.consts_re : ∀ (e : Ex) (Γ : Nat → Option LV), ∀ q ∈ e.consts c Γ, 0 < c.reassigned q.1 → q.2 = none
  | .const _, _, q, h, _ => by simp [Ex.consts] at h
  | .var _, _, q, h, _ => by simp [Ex.consts] at h
  | .dots, _, q, h, _ => by simp [Ex.consts] at h
  | .group e, Γ, q, h, hr => by simp only [Ex.consts] at h; exact e.consts_re Γ q h hr
  | .un _ e, Γ, q, h, hr => by simp only [Ex.consts] at h; exact e.consts_re Γ q h hr
  | .bin _ l r, Γ, q, h, hr => by
    simp only [Ex.consts, List.mem_append] at h
    exact h.elim (fun h => l.consts_re Γ q h hr) fun h => r.consts_re Γ q h hr
  | .builtin _ es, Γ, q, h, hr => by simp only [Ex.consts] at h; exact constsEs_re es Γ q h hr
  | .call f es, Γ, q, h, hr => by
    simp only [Ex.consts, List.mem_append] at h
    exact h.elim (fun h => f.consts_re Γ q h hr) fun h => constsEs_re es Γ q h hr
  | .index e k, Γ, q, h, hr => by
    simp only [Ex.consts, List.mem_append] at h
    exact h.elim (fun h => e.consts_re Γ q h hr) fun h => k.consts_re Γ q h hr
  | .op _ _ es, Γ, q, h, hr => by simp only [Ex.consts] at h; exact constsEs_re es Γ q h hr
  | .func ps _ b, Γ, q, h, hr => by
    simp only [Ex.consts, List.mem_append] at h
    exact h.elim never_none fun h => constsBl_re b _ q h hr
theorem constsEs_re : ∀ (es : List Ex) (Γ : Nat → Option LV), ∀ q ∈ constsEs c Γ es, 0 < c.reassigned q.1 → q.2 = none
  | [], _, q, h, _ => by simp [constsEs] at h
  | e :: es, Γ, q, h, hr => by
    simp only [constsEs, List.mem_append] at h
    exact h.elim (fun h => e.consts_re Γ q h hr) fun h => constsEs_re es Γ q h hr
theorem St.consts_re : ∀ (s : St) (Γ : Nat → Option LV), ∀ q ∈ s.consts c Γ, 0 < c.reassigned q.1 → q.2 = none
  | .locals xs es, Γ, q, h, hr => by
    simp only [St.consts, List.mem_append] at h
    refine h.elim (fun h => constsEs_re es Γ q h hr) fun h => ?_
    split at h
    · exact noted_reassigned _ _ xs _ q h hr
    · simp at h
  | .localFn x ps _ b, Γ, q, h, hr => by
    simp only [St.consts, List.mem_append, List.mem_cons] at h
    rcases h with (rfl | h) | h
    · rfl
    · exact never_none h
    · exact constsBl_re b _ q h hr
  | .assign ts es, Γ, q, h, hr => by
    simp only [St.consts, List.mem_append] at h
    exact h.elim (fun h => constsTs_re ts Γ q h hr) fun h => constsEs_re es Γ q h hr
  | .eval e, Γ, q, h, hr => by simp only [St.consts] at h; exact e.consts_re Γ q h hr
  | .ret es, Γ, q, h, hr => by simp only [St.consts] at h; exact constsEs_re es Γ q h hr
  | .brk, _, q, h, _ => by simp [St.consts] at h
  | .doB b, Γ, q, h, hr => by simp only [St.consts] at h; exact constsBl_re b Γ q h hr
  | .whileS e b, Γ, q, h, hr => by
    simp only [St.consts, List.mem_append] at h
    exact h.elim (fun h => e.consts_re Γ q h hr) fun h => constsBl_re b Γ q h hr
  | .repeatS b e, Γ, q, h, hr => by
    simp only [St.consts, List.mem_append] at h
    refine h.elim (fun h => constsBl_re b Γ q h hr) fun h => ?_
    split at h
    · exact e.consts_re _ q h hr
    · simp at h
  | .forNum x es b, Γ, q, h, hr => by
    simp only [St.consts, List.mem_append, List.mem_cons] at h
    rcases h with h | rfl | h
    · exact constsEs_re es Γ q h hr
    · rfl
    · exact constsBl_re b _ q h hr
  | .forIn xs es b, Γ, q, h, hr => by
    simp only [St.consts, List.mem_append] at h
    rcases h with (h | h) | h
    · exact constsEs_re es Γ q h hr
    · exact never_none h
    · exact constsBl_re b _ q h hr
  | .ifS e t f, Γ, q, h, hr => by
    simp only [St.consts, List.mem_append] at h
    rcases h with (h | h) | h
    · exact e.consts_re Γ q h hr
    · exact constsBl_re t Γ q h hr
    · exact f.consts_re Γ q h hr
theorem constsBl_re : ∀ (b : List St) (Γ : Nat → Option LV), ∀ q ∈ constsBl c Γ b, 0 < c.reassigned q.1 → q.2 = none
  | [], _, q, h, _ => by simp [constsBl] at h
  | s :: b, Γ, q, h, hr => by
    simp only [constsBl, List.mem_append] at h
    refine h.elim (fun h => s.consts_re Γ q h hr) fun h => ?_
    split at h
    · exact constsBl_re b _ q h hr
    · simp at h
theorem El.consts_re : ∀ (e : El) (Γ : Nat → Option LV), ∀ q ∈ e.consts c Γ, 0 < c.reassigned q.1 → q.2 = none
  | .none, _, q, h, _ => by simp [El.consts] at h
  | .else_ b, Γ, q, h, hr => by simp only [El.consts] at h; exact constsBl_re b Γ q h hr
  | .elseif e t f, Γ, q, h, hr => by
    simp only [El.consts, List.mem_append] at h
    rcases h with (h | h) | h
    · exact e.consts_re Γ q h hr
    · exact constsBl_re t Γ q h hr
    · exact f.consts_re Γ q h hr
theorem Tg.consts_re : ∀ (t : Tg) (Γ : Nat → Option LV), ∀ q ∈ t.consts c Γ, 0 < c.reassigned q.1 → q.2 = none
  | .loc _, _, q, h, _ => by simp [Tg.consts] at h
  | .put _ es, Γ, q, h, hr => by simp only [Tg.consts] at h; exact constsEs_re es Γ q h hr
theorem constsTs_re : ∀ (ts : List Tg) (Γ : Nat → Option LV), ∀ q ∈ constsTs c Γ ts, 0 < c.reassigned q.1 → q.2 = none
  | [], _, q, h, _ => by simp [constsTs] at h
  | t :: ts, Γ, q, h, hr => by
    simp only [constsTs, List.mem_append] at h
    exact h.elim (fun h => t.consts_re Γ q h hr) fun h => constsTs_re ts Γ q h hr
end

/-! ### Expressions that give several values -/

theorem Ex.plain_true {lang : Lang} : ∀ {e : Ex}, e.Plain lang false → e.several = false → e.Plain lang true
  | .bin _ l r, h, hs => by
    simp only [Ex.several, Bool.and_eq_false_iff] at hs
    refine ⟨h.1, h.2.1, fun _ ho => ?_⟩
    rcases hs with hs | hs
    · rw [hs] at ho; cases ho
    · exact hs
  | .const _, h, _ => h
  | .var _, h, _ => h
  | .dots, h, _ => h
  | .group _, h, _ => h
  | .un _ _, h, _ => h
  | .builtin _ _, h, _ => h
  | .call _ _, h, _ => h
  | .index _ _, h, _ => h
  | .op _ _ _, h, _ => h
  | .func _ _ _, h, _ => h

theorem Ex.multi_several {e : Ex} (h : e.several = false) : e.multi = false := by
  cases e <;> simp_all [Ex.several, Ex.multi]

theorem set_multi (node : Ex) (v : LV) (h : (c.set node v).1.multi = true) : node.multi = true := by
  unfold Fold.set at h
  split at h
  · exact h
  · simp [Ex.multi] at h

/-- What folding leaves gives several values only if the expression might. -/
theorem several_of_fold {Γ : Nat → Option LV} : ∀ (e : Ex) {p : Ex × Option LV}, c.ex Γ e = some p → p.1.multi = true → e.several = true
  | .const _, p, h, hm => by simp only [Fold.ex, Option.some.injEq] at h; subst h; simp [Ex.multi] at hm
  | .var x, p, h, hm => by
    simp only [Fold.ex, Option.some.injEq] at h; subst h
    split at hm <;> simp [Ex.multi] at hm
  | .dots, p, h, hm => by simp [Ex.several]
  | .group e, p, h, hm => by
    simp only [Fold.ex, Option.map_eq_some_iff] at h
    obtain ⟨q, _, rfl⟩ := h
    simp [Ex.multi] at hm
  | .un o e, p, h, hm => by
    simp only [Fold.ex, Option.bind_eq_some_iff] at h
    obtain ⟨q, _, h⟩ := h
    unfold Fold.stepUn at h
    split at h
    · simp only [Option.some.injEq] at h; subst h; simp [Ex.multi] at hm
    · simp only [Option.map_eq_some_iff] at h
      obtain ⟨r, _, rfl⟩ := h
      cases r with
      | none => simp [Ex.multi] at hm
      | some x => have := set_multi _ _ hm; simp [Ex.multi] at this
  | .bin o l r, p, h, hm => by
    simp only [Fold.ex, Option.bind_eq_some_iff] at h
    obtain ⟨q, hq, z, hz, h⟩ := h
    have ih := several_of_fold r hz
    unfold Fold.stepBin at h
    split at h
    · simp only [Option.some.injEq] at h; subst h; simp [Ex.multi] at hm
    · simp only [Option.map_eq_some_iff] at h
      obtain ⟨r, _, rfl⟩ := h
      cases r with
      | none => simp [Ex.multi] at hm
      | some x => have := set_multi _ _ hm; simp [Ex.multi] at this
    · split at h
      · rename_i ho
        simp only [Option.some.injEq] at h; subst h
        split at hm
        · simp [Ex.several, ih hm, ho, BinOp.logic]
        · have := set_multi _ _ hm; simp [Ex.multi] at this
      · split at h
        · rename_i ho
          simp only [Option.some.injEq] at h; subst h
          split at hm
          · have := set_multi _ _ hm; simp [Ex.multi] at this
          · simp [Ex.several, ih hm, ho, BinOp.logic]
        · simp only [Option.some.injEq] at h; subst h; simp [Ex.multi] at hm
  | .builtin _ _, p, h, hm => by simp [Ex.several]
  | .call _ _, p, h, hm => by simp [Ex.several]
  | .index e k, p, h, hm => by
    simp only [Fold.ex, Option.bind_eq_some_iff, Option.map_eq_some_iff] at h
    obtain ⟨q, _, z, _, rfl⟩ := h
    simp [Ex.multi] at hm
  | .op k m es, p, h, hm => by
    simp only [Fold.ex, Option.map_eq_some_iff] at h
    obtain ⟨q, _, rfl⟩ := h
    simpa [Ex.multi, Ex.several] using hm
  | .func ps d b, p, h, hm => by
    simp only [Fold.ex, Option.map_eq_some_iff] at h
    obtain ⟨q, _, rfl⟩ := h
    simp [Ex.multi] at hm

theorem exs_length {Γ : Nat → Option LV} : ∀ (es : List Ex) {p : List Ex × List (Option LV)}, c.exs Γ es = some p → p.1.length = es.length
  | [], p, h => by simp only [Fold.exs, Option.some.injEq] at h; subst h; rfl
  | e :: es, p, h => by
    simp only [Fold.exs, Option.bind_eq_some_iff, Option.map_eq_some_iff] at h
    obtain ⟨q, _, z, hz, rfl⟩ := h
    simp [exs_length es hz]

theorem unmarked_short {α β : Type} : ∀ (ms : List Bool) (xs : List α) (es : List β), ms.length = xs.length → xs.length ≤ es.length →
    unmarked ms es = [] → unmarked ms xs = []
  | [], [], _, _, _, _ => rfl
  | [], _ :: _, _, h, _, _ => by simp at h
  | _ :: _, [], _, h, _, _ => by simp at h
  | _ :: _, _ :: _, [], _, h, _ => by simp at h
  | true :: ms, _ :: xs, _ :: es, h, h1, h2 => by
    simp only [unmarked] at h2 ⊢
    exact unmarked_short ms xs es (by simpa using h) (by simpa using h1) h2
  | false :: ms, _ :: xs, _ :: es, _, _, h => by simp [unmarked] at h

theorem noExpose_short : ∀ (ms : List Bool) (xs : List Nat) (es : List Ex), ms.length = xs.length → xs.length ≤ es.length → NoExpose ms xs es
  | [], _, _, _, _ => trivial
  | _ :: _, [], _, _, _ => trivial
  | _ :: _, _ :: _, [], _, _ => trivial
  | _ :: _, _ :: _, [_], _, _ => trivial
  | m :: ms, x :: xs, e :: e' :: es, h, h1 => by
    simp only [List.length_cons, Nat.add_right_cancel_iff, Nat.add_le_add_iff_right] at h h1
    exact ⟨fun _ hu _ => unmarked_short ms xs (e' :: es) h h1 hu, noExpose_short ms xs (e' :: es) h h1⟩

theorem noExpose_one {Γ : Nat → Option LV} : ∀ (ms : List Bool) (xs : List Nat) (es : List Ex) {p : List Ex × List (Option LV)}, c.exs Γ es = some p →
    (∀ e ∈ es.dropLast, e.several = false) → NoExpose ms xs p.1
  | ms, xs, [], p, h, _ => by
    simp only [Fold.exs, Option.some.injEq] at h; subst h
    cases ms <;> cases xs <;> trivial
  | ms, xs, [e], p, h, _ => by
    simp only [Fold.exs, Option.bind_eq_some_iff, Option.map_eq_some_iff] at h
    obtain ⟨q, _, z, hz, rfl⟩ := h
    simp only [Option.some.injEq] at hz; subst hz
    cases ms <;> cases xs <;> trivial
  | ms, xs, e :: e' :: es, p, h, h1 => by
    rw [Fold.exs] at h
    simp only [Option.bind_eq_some_iff, Option.map_eq_some_iff] at h
    obtain ⟨q, hq, z, hz, rfl⟩ := h
    have hl := exs_length _ hz
    have ih := fun ms xs => noExpose_one ms xs (e' :: es) hz (fun a ha => h1 a (by simp [ha]))
    have he := h1 e (by simp)
    cases ms with
    | nil => cases xs <;> trivial
    | cons m ms =>
      cases xs with
      | nil => trivial
      | cons x xs =>
        have ih := ih ms xs
        cases hz1 : z.1 with
        | nil => rw [hz1] at hl; simp at hl
        | cons a as =>
          rw [hz1] at ih
          refine ⟨fun _ _ hm => ?_, ih⟩
          rw [several_of_fold e hq hm] at he
          cases he

theorem agree_noted : ∀ (xs : List Nat) (ms : List Bool) (ks : List (Option LV)), (∀ q ∈ noted xs ms ks, G q.1 = q.2) → Agree G xs ms ks
  | [], _, _, _ => trivial
  | _ :: _, [], _, _ => trivial
  | x :: xs, m :: ms, ks, h => by
    simp only [noted, List.mem_cons] at h
    exact ⟨h _ (.inl rfl), agree_noted xs ms ks.tail fun q hq => h q (.inr hq)⟩

theorem never_g {xs : List Nat} (h : ∀ q ∈ never xs, G q.1 = q.2) : ∀ x ∈ xs, G x = none :=
  fun x hx => h (x, none) (by simpa [never] using hx)

/-! ### The conditions follow -/

mutual
theorem Ex.fine_of : ∀ (e : Ex) {m : Bool} {D : List Nat} {Γ : Nat → Option LV}, e.Scoped D → e.Plain c.lang m → (∀ x ∈ e.writes, G x = none) →
    (∀ q ∈ e.consts c Γ, G q.1 = q.2) → e.Fine c G m D Γ
  | .const _, _, _, _, _, hp, _, _ => hp
  | .var _, _, _, _, hs, _, _, _ => hs
  | .dots, _, _, _, _, _, _, _ => trivial
  | .group e, _, _, _, hs, hp, hw, hc => by
    simp only [Ex.Scoped, Ex.Plain, Ex.writes, Ex.consts, Ex.Fine] at *
    exact e.fine_of hs hp hw hc
  | .un _ e, _, _, _, hs, hp, hw, hc => by
    simp only [Ex.Scoped, Ex.Plain, Ex.writes, Ex.consts, Ex.Fine] at *
    exact e.fine_of hs hp hw hc
  | .bin o l r, m, _, _, hs, hp, hw, hc => by
    simp only [Ex.Scoped, Ex.Plain, Ex.writes, Ex.consts, Ex.Fine, List.mem_append] at *
    refine ⟨l.fine_of hs.1 hp.1 (fun x h => hw x (.inl h)) (fun q h => hc q (.inl h)), ?_, ?_⟩
    · refine r.fine_of hs.2 ?_ (fun x h => hw x (.inr h)) (fun q h => hc q (.inr h))
      cases hmo : m && o.logic with
      | false => exact hp.2.1
      | true =>
        simp only [Bool.and_eq_true] at hmo
        exact Ex.plain_true hp.2.1 (hp.2.2 hmo.1 hmo.2)
    · intro h
      simp only [Bool.and_eq_true] at h
      exact Ex.multi_several (hp.2.2 h.1 h.2)
  | .builtin _ es, _, _, _, hs, hp, hw, hc => by
    simp only [Ex.Scoped, Ex.Plain, Ex.writes, Ex.consts, Ex.Fine] at *
    exact fineEs_of es hs hp hw hc
  | .call f es, _, _, _, hs, hp, hw, hc => by
    simp only [Ex.Scoped, Ex.Plain, Ex.writes, Ex.consts, Ex.Fine, List.mem_append] at *
    exact ⟨f.fine_of hs.1 hp.1 (fun x h => hw x (.inl h)) (fun q h => hc q (.inl h)),
      fineEs_of es hs.2 hp.2 (fun x h => hw x (.inr h)) (fun q h => hc q (.inr h))⟩
  | .index e k, _, _, _, hs, hp, hw, hc => by
    simp only [Ex.Scoped, Ex.Plain, Ex.writes, Ex.consts, Ex.Fine, List.mem_append] at *
    exact ⟨e.fine_of hs.1 hp.1 (fun x h => hw x (.inl h)) (fun q h => hc q (.inl h)),
      k.fine_of hs.2 hp.2 (fun x h => hw x (.inr h)) (fun q h => hc q (.inr h))⟩
  | .op _ _ es, _, _, _, hs, hp, hw, hc => by
    simp only [Ex.Scoped, Ex.Plain, Ex.writes, Ex.consts, Ex.Fine] at *
    exact fineEs_of es hs hp hw hc
  | .func ps _ b, _, _, _, hs, hp, hw, hc => by
    simp only [Ex.Scoped, Ex.Plain, Ex.writes, Ex.consts, Ex.Fine, List.mem_append] at *
    exact ⟨never_g fun q h => hc q (.inl h), fineBl_of b hs hp hw fun q h => hc q (.inr h)⟩
theorem fineEs_of : ∀ (es : List Ex) {D : List Nat} {Γ : Nat → Option LV}, ScopedEs D es → PlainEs c.lang es → (∀ x ∈ writesEs es, G x = none) →
    (∀ q ∈ constsEs c Γ es, G q.1 = q.2) → FineEs c G D Γ es
  | [], _, _, _, _, _, _ => trivial
  | [e], _, _, hs, hp, hw, hc => by
    simp only [ScopedEs, PlainEs, writesEs, constsEs, FineEs, List.append_nil, List.isEmpty_nil] at *
    exact e.fine_of hs.1 hp.1 hw hc
  | e :: e' :: es, _, _, hs, hp, hw, hc => by
    rw [ScopedEs] at hs
    rw [PlainEs] at hp
    rw [writesEs] at hw
    rw [constsEs] at hc
    simp only [List.mem_append, List.isEmpty_cons, FineEs] at *
    exact ⟨e.fine_of hs.1 hp.1 (fun x h => hw x (.inl h)) (fun q h => hc q (.inl h)),
      fineEs_of (e' :: es) hs.2 hp.2 (fun x h => hw x (.inr h)) (fun q h => hc q (.inr h))⟩
theorem St.fine_of : ∀ (s : St) {D : List Nat} {Γ : Nat → Option LV}, s.Scoped D → s.Plain c.lang → (∀ x ∈ s.writes, G x = none) →
    (∀ q ∈ s.consts c Γ, G q.1 = q.2) → s.Fine c G D Γ
  | .locals xs es, _, _, hs, hp, hw, hc => by
    simp only [St.Scoped, St.Plain, St.writes, St.consts, St.Fine, List.mem_append] at *
    refine ⟨fineEs_of es hs hp.1 hw fun q h => hc q (.inl h), fun p h => ?_⟩
    rw [h] at hc
    refine ⟨?_, agree_noted _ _ _ fun q h => hc q (.inr h)⟩
    by_cases hl : es.length < xs.length
    · exact noExpose_one _ _ es h (hp.2 hl)
    · exact noExpose_short _ _ _ (by rw [usedMarks_length, marks_len]) (by rw [exs_length es h]; omega)
  | .localFn x ps _ b, _, _, hs, hp, hw, hc => by
    simp only [St.Scoped, St.Plain, St.writes, St.consts, St.Fine, List.mem_append, List.mem_cons] at *
    exact ⟨hc _ (.inl (.inl rfl)), never_g fun q h => hc q (.inl (.inr h)), fineBl_of b hs hp hw fun q h => hc q (.inr h)⟩
  | .assign ts es, _, _, hs, hp, hw, hc => by
    simp only [St.Scoped, St.Plain, St.writes, St.consts, St.Fine, List.mem_append] at *
    exact ⟨fineTs_of ts hs.1 hp.1 (fun x h => hw x (.inl h)) (fun q h => hc q (.inl h)),
      fineEs_of es hs.2 hp.2 (fun x h => hw x (.inr h)) (fun q h => hc q (.inr h))⟩
  | .eval e, _, _, hs, hp, hw, hc => by
    simp only [St.Scoped, St.Plain, St.writes, St.consts, St.Fine] at *
    exact e.fine_of hs hp hw hc
  | .ret es, _, _, hs, hp, hw, hc => by
    simp only [St.Scoped, St.Plain, St.writes, St.consts, St.Fine] at *
    exact fineEs_of es hs hp hw hc
  | .brk, _, _, _, _, _, _ => trivial
  | .doB b, _, _, hs, hp, hw, hc => by
    simp only [St.Scoped, St.Plain, St.writes, St.consts, St.Fine] at *
    exact fineBl_of b hs hp hw hc
  | .whileS e b, _, _, hs, hp, hw, hc => by
    simp only [St.Scoped, St.Plain, St.writes, St.consts, St.Fine, List.mem_append] at *
    exact ⟨e.fine_of hs.1 hp.1 (fun x h => hw x (.inl h)) (fun q h => hc q (.inl h)),
      fineBl_of b hs.2 hp.2 (fun x h => hw x (.inr h)) (fun q h => hc q (.inr h))⟩
  | .repeatS b e, _, _, hs, hp, hw, hc => by
    simp only [St.Scoped, St.Plain, St.writes, St.consts, St.Fine, List.mem_append] at *
    refine ⟨fineBl_of b hs.1 hp.1 (fun x h => hw x (.inl h)) (fun q h => hc q (.inl h)), fun p h => ?_⟩
    rw [h] at hc
    exact e.fine_of hs.2 hp.2 (fun x h => hw x (.inr h)) (fun q h => hc q (.inr h))
  | .forNum x es b, _, _, hs, hp, hw, hc => by
    simp only [St.Scoped, St.Plain, St.writes, St.consts, St.Fine, List.mem_append, List.mem_cons] at *
    exact ⟨hc _ (.inr (.inl rfl)), fineEs_of es hs.1 hp.1 (fun x h => hw x (.inl h)) (fun q h => hc q (.inl h)),
      fineBl_of b hs.2 hp.2 (fun x h => hw x (.inr h)) (fun q h => hc q (.inr (.inr h)))⟩
  | .forIn xs es b, _, _, hs, hp, hw, hc => by
    simp only [St.Scoped, St.Plain, St.writes, St.consts, St.Fine, List.mem_append] at *
    exact ⟨never_g fun q h => hc q (.inl (.inr h)), fineEs_of es hs.1 hp.1 (fun x h => hw x (.inl h)) (fun q h => hc q (.inl (.inl h))),
      fineBl_of b hs.2 hp.2 (fun x h => hw x (.inr h)) (fun q h => hc q (.inr h))⟩
  | .ifS e t f, _, _, hs, hp, hw, hc => by
    simp only [St.Scoped, St.Plain, St.writes, St.consts, St.Fine, List.mem_append] at *
    exact ⟨e.fine_of hs.1 hp.1 (fun x h => hw x (.inl (.inl h))) (fun q h => hc q (.inl (.inl h))),
      fineBl_of t hs.2.1 hp.2.1 (fun x h => hw x (.inl (.inr h))) (fun q h => hc q (.inl (.inr h))),
      f.fine_of hs.2.2 hp.2.2 (fun x h => hw x (.inr h)) (fun q h => hc q (.inr h))⟩
theorem fineBl_of : ∀ (b : List St) {D : List Nat} {Γ : Nat → Option LV}, ScopedBl D b → PlainBl c.lang b → (∀ x ∈ writesBl b, G x = none) →
    (∀ q ∈ constsBl c Γ b, G q.1 = q.2) → FineBl c G D Γ b
  | [], _, _, _, _, _, _ => trivial
  | s :: b, _, _, hs, hp, hw, hc => by
    simp only [ScopedBl, PlainBl, writesBl, constsBl, FineBl, List.mem_append] at *
    refine ⟨s.fine_of hs.1 hp.1 (fun x h => hw x (.inl h)) (fun q h => hc q (.inl h)), fun p h => ?_⟩
    rw [h] at hc
    exact fineBl_of b hs.2 hp.2 (fun x h => hw x (.inr h)) (fun q h => hc q (.inr h))
theorem El.fine_of : ∀ (e : El) {D : List Nat} {Γ : Nat → Option LV}, e.Scoped D → e.Plain c.lang → (∀ x ∈ e.writes, G x = none) →
    (∀ q ∈ e.consts c Γ, G q.1 = q.2) → e.Fine c G D Γ
  | .none, _, _, _, _, _, _ => trivial
  | .else_ b, _, _, hs, hp, hw, hc => by
    simp only [El.Scoped, El.Plain, El.writes, El.consts, El.Fine] at *
    exact fineBl_of b hs hp hw hc
  | .elseif e t f, _, _, hs, hp, hw, hc => by
    simp only [El.Scoped, El.Plain, El.writes, El.consts, El.Fine, List.mem_append] at *
    exact ⟨e.fine_of hs.1 hp.1 (fun x h => hw x (.inl (.inl h))) (fun q h => hc q (.inl (.inl h))),
      fineBl_of t hs.2.1 hp.2.1 (fun x h => hw x (.inl (.inr h))) (fun q h => hc q (.inl (.inr h))),
      f.fine_of hs.2.2 hp.2.2 (fun x h => hw x (.inr h)) (fun q h => hc q (.inr h))⟩
theorem Tg.fine_of : ∀ (t : Tg) {D : List Nat} {Γ : Nat → Option LV}, t.Scoped D → t.Plain c.lang → (∀ x ∈ t.writes, G x = none) →
    (∀ q ∈ t.consts c Γ, G q.1 = q.2) → t.Fine c G D Γ
  | .loc x, _, _, hs, _, hw, _ => ⟨hs, hw x (by simp [Tg.writes])⟩
  | .put _ es, _, _, hs, hp, hw, hc => by
    simp only [Tg.Scoped, Tg.Plain, Tg.writes, Tg.consts, Tg.Fine] at *
    exact fineEs_of es hs hp hw hc
theorem fineTs_of : ∀ (ts : List Tg) {D : List Nat} {Γ : Nat → Option LV}, ScopedTs D ts → PlainTs c.lang ts → (∀ x ∈ writesTs ts, G x = none) →
    (∀ q ∈ constsTs c Γ ts, G q.1 = q.2) → FineTs c G D Γ ts
  | [], _, _, _, _, _, _ => trivial
  | t :: ts, _, _, hs, hp, hw, hc => by
    simp only [ScopedTs, PlainTs, writesTs, constsTs, FineTs, List.mem_append] at *
    exact ⟨t.fine_of hs.1 hp.1 (fun x h => hw x (.inl h)) (fun q h => hc q (.inl h)),
      fineTs_of ts hs.2 hp.2 (fun x h => hw x (.inr h)) (fun q h => hc q (.inr h))⟩
end

/-- The constant a list of declarations records for a variable. -/
def lookup (l : List (Nat × Option LV)) (x : Nat) : Option LV := ((l.find? fun q => q.1 == x).map (·.2)).getD none

theorem lookup_mem : ∀ (l : List (Nat × Option LV)), (l.map (·.1)).Nodup → ∀ q ∈ l, lookup l q.1 = q.2
  | [], _, q, h => by simp at h
  | a :: l, hn, q, h => by
    simp only [List.map_cons, List.nodup_cons] at hn
    rcases List.mem_cons.mp h with rfl | h
    · simp [lookup]
    · have : (a.1 == q.1) = false := by
        simp only [beq_eq_false_iff_ne, ne_eq]
        intro he
        exact hn.1 (he ▸ List.mem_map.mpr ⟨q, h, rfl⟩)
      have ih := lookup_mem l hn.2 q h
      simp only [lookup, List.find?_cons, this] at ih ⊢
      exact ih

theorem lookup_none (l : List (Nat × Option LV)) (x : Nat) (h : ∀ q ∈ l, q.1 = x → q.2 = none) : lookup l x = none := by
  unfold lookup
  cases hf : l.find? fun q => q.1 == x with
  | none => rfl
  | some q => simpa using h q (List.mem_of_find?_eq_some hf) (by simpa using List.find?_some hf)

/-- The final constants of a program. -/
theorem exists_consts {b : List St} (hr : ∀ x, c.reassigned x = (writesBl b).count x) (hs : ScopedBl [] b) (hp : PlainBl c.lang b)
    (hn : (declaredBl b).Nodup) : ∃ G, FineBl c G [] (fun _ => none) b := by
  refine ⟨lookup (constsBl c (fun _ => none) b), fineBl_of b hs hp ?_ (lookup_mem _ (hn.sublist (constsBl_sub b _)))⟩
  intro x hx
  refine lookup_none _ _ fun q hq he => constsBl_re b _ q hq ?_
  rw [hr, he]
  exact List.count_pos_iff.mpr hx

end Verif.Core
