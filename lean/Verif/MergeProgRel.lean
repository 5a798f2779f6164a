import Verif.MergeProg
import Verif.FoldProgLocal
import Mathlib.Logic.Relation
import Mathlib.Data.List.Nodup
import Mathlib.Data.List.Perm.Basic
/-
Helpers for C75: one program is another with some pairs of neighbouring declarations merged, at any depth.
-/
namespace Verif.Core.Mrg
open Spec

/-- When `local xs=es local ys=fs` may become one declaration. -/
structure May (nm : Nat → Nat) (xs : List Nat) (es : List Ex) (ys : List Nat) (fs : List Ex) : Prop where
  nodup : (xs ++ ys).Nodup
  unused : ∀ x ∈ usesEs fs, x ∉ xs
  enough : es.length ≤ xs.length
  few : es.length < xs.length → lastMany es = false ∧ lastMany fs = false ∧ fs.length ≤ ys.length
  bare : fs = [] → lastMany es = false
  names : ∀ x ∈ xs.drop es.length, ∀ y ∈ ys, nm x ≠ nm y

def both (xs : List Nat) (n : Nat) (ys : List Nat) : List Nat := xs.take n ++ ys ++ xs.drop n

mutual
inductive PEx (nm : Nat → Nat) : Ex → Ex → Prop
  | const (v) : PEx nm (.const v) (.const v)
  | var (x) : PEx nm (.var x) (.var x)
  | dots : PEx nm .dots .dots
  | group {e e'} : PEx nm e e' → PEx nm (.group e) (.group e')
  | un (o) {e e'} : PEx nm e e' → PEx nm (.un o e) (.un o e')
  | bin (o) {l l' r r'} : PEx nm l l' → PEx nm r r' → PEx nm (.bin o l r) (.bin o l' r')
  | builtin (f) {es es'} : PEs nm es es' → PEx nm (.builtin f es) (.builtin f es')
  | call {f f' es es'} : PEx nm f f' → PEs nm es es' → PEx nm (.call f es) (.call f' es')
  | index {e e' k k'} : PEx nm e e' → PEx nm k k' → PEx nm (.index e k) (.index e' k')
  | op (k m) {es es'} : PEs nm es es' → PEx nm (.op k m es) (.op k m es')
  | func (ps d) {b b'} : PBl nm b b' → PEx nm (.func ps d b) (.func ps d b')
inductive PEs (nm : Nat → Nat) : List Ex → List Ex → Prop
  | nil : PEs nm [] []
  | cons {e e' es es'} : PEx nm e e' → PEs nm es es' → PEs nm (e :: es) (e' :: es')
inductive PSt (nm : Nat → Nat) : St → St → Prop
  | locals (xs) {es es'} : PEs nm es es' → PSt nm (.locals xs es) (.locals xs es')
  | localFn (x ps d) {b b'} : PBl nm b b' → PSt nm (.localFn x ps d b) (.localFn x ps d b')
  | assign {ts ts' es es'} : PTs nm ts ts' → PEs nm es es' → PSt nm (.assign ts es) (.assign ts' es')
  | eval {e e'} : PEx nm e e' → PSt nm (.eval e) (.eval e')
  | ret {es es'} : PEs nm es es' → PSt nm (.ret es) (.ret es')
  | brk : PSt nm .brk .brk
  | doB {b b'} : PBl nm b b' → PSt nm (.doB b) (.doB b')
  | whileS {e e' b b'} : PEx nm e e' → PBl nm b b' → PSt nm (.whileS e b) (.whileS e' b')
  | repeatS {b b' e e'} : PBl nm b b' → PEx nm e e' → PSt nm (.repeatS b e) (.repeatS b' e')
  | forNum (x) {es es' b b'} : PEs nm es es' → PBl nm b b' → PSt nm (.forNum x es b) (.forNum x es' b')
  | forIn (xs) {es es' b b'} : PEs nm es es' → PBl nm b b' → PSt nm (.forIn xs es b) (.forIn xs es' b')
  | ifS {e e' t t' f f'} : PEx nm e e' → PBl nm t t' → PEl nm f f' → PSt nm (.ifS e t f) (.ifS e' t' f')
inductive PBl (nm : Nat → Nat) : List St → List St → Prop
  | nil : PBl nm [] []
  | cons {s s' b b'} : PSt nm s s' → PBl nm b b' → PBl nm (s :: b) (s' :: b')
  | merge {xs es ys fs es' fs' b b'} : May nm xs es ys fs → PEs nm es es' → PEs nm fs fs' → PBl nm b b' →
    PBl nm (.locals xs es :: .locals ys fs :: b) (.locals (both xs es.length ys) (es' ++ fs') :: b')
inductive PEl (nm : Nat → Nat) : El → El → Prop
  | none : PEl nm .none .none
  | else_ {b b'} : PBl nm b b' → PEl nm (.else_ b) (.else_ b')
  | elseif {e e' t t' f f'} : PEx nm e e' → PBl nm t t' → PEl nm f f' → PEl nm (.elseif e t f) (.elseif e' t' f')
inductive PTg (nm : Nat → Nat) : Tg → Tg → Prop
  | loc (x) : PTg nm (.loc x) (.loc x)
  | put (k) {es es'} : PEs nm es es' → PTg nm (.put k es) (.put k es')
inductive PTs (nm : Nat → Nat) : List Tg → List Tg → Prop
  | nil : PTs nm [] []
  | cons {t t' ts ts'} : PTg nm t t' → PTs nm ts ts' → PTs nm (t :: ts) (t' :: ts')
end

variable {nm : Nat → Nat}

theorem PEs.length : ∀ {es es' : List Ex}, PEs nm es es' → es'.length = es.length
  | [], _, h => by cases h; rfl
  | _ :: _, _, h => by cases h with | cons _ h => simp [PEs.length h]

theorem PEx.multi {e e' : Ex} (h : PEx nm e e') : e'.multi = e.multi := by cases h <;> rfl

theorem PEs.last : ∀ {es es' : List Ex}, PEs nm es es' → lastMany es' = lastMany es
  | [], _, h => by cases h; rfl
  | [e], _, h => by
    cases h with | cons h h' => cases h'; simp [lastMany, h.multi]
  | e :: e' :: es, _, h => by
    cases h with
    | cons h h' =>
      cases h' with
      | cons h1 h2 =>
        have := PEs.last (PEs.cons h1 h2)
        simpa [lastMany, List.getLast?_cons_cons] using this

/-! ### Values of lists of expressions -/

section
variable {H : Type}

theorem bind_assoc {α β γ : Type} (r : R H α) (f : α → State H → R H β) (g : β → State H → R H γ) :
    (r.bind f).bind g = r.bind fun a s => (f a s).bind g := by cases r <;> rfl

theorem vals_one {c : Cx H} {ρ : Env} {va : List V} {e : Ex} (he : e.multi = false) {s t : State H} {vs : List V}
    (h : vals c ρ va e s = .ok vs t) : vs.length = 1 := by
  cases e with
  | const v => simp only [vals, R.ok.injEq] at h; rw [← h.1]; rfl
  | var x =>
    simp only [vals] at h
    split at h
    · cases h; rfl
    · cases h
  | dots => cases he
  | group e => simp only [vals] at h; obtain ⟨_, _, _, h⟩ := bind_ok h; cases h; rfl
  | un o e =>
    simp only [vals] at h
    obtain ⟨_, _, _, h⟩ := bind_ok h
    obtain ⟨_, _, _, h⟩ := bind_ok h
    cases h; rfl
  | bin o l r =>
    simp only [vals] at h
    obtain ⟨_, _, _, h⟩ := bind_ok h
    split at h
    · cases h; rfl
    · obtain ⟨_, _, _, h⟩ := bind_ok h
      split at h
      · cases h; rfl
      · obtain ⟨_, _, _, h⟩ := bind_ok h
        cases h; rfl
  | builtin f es => cases he
  | call f es => cases he
  | index e k =>
    simp only [vals] at h
    obtain ⟨_, _, _, h⟩ := bind_ok h
    obtain ⟨_, _, _, h⟩ := bind_ok h
    obtain ⟨_, _, _, h⟩ := bind_ok h
    cases h; rfl
  | op k m es =>
    simp only [Ex.multi] at he
    subst he
    simp only [vals] at h
    obtain ⟨_, _, _, h⟩ := bind_ok h
    obtain ⟨_, _, _, h⟩ := bind_ok h
    cases h; rfl
  | func ps d b => simp only [vals, R.ok.injEq] at h; rw [← h.1]; rfl

theorem args_length {c : Cx H} {ρ : Env} {va : List V} : ∀ {es : List Ex} {s t : State H} {vs : List V}, lastMany es = false →
    args c ρ va es s = .ok vs t → vs.length = es.length
  | [], s, t, vs, _, h => by simp only [args, R.ok.injEq] at h; rw [← h.1]; rfl
  | [e], s, t, vs, hm, h => by simp only [args] at h; exact vals_one (by simpa [lastMany] using hm) h
  | e :: e' :: es, s, t, vs, hm, h => by
    simp only [args] at h
    obtain ⟨us, u, h1, h2⟩ := bind_ok h
    obtain ⟨ws, z, h3, h4⟩ := bind_ok h2
    cases h4
    have := args_length (es := e' :: es) (by simpa [lastMany, List.getLast?_cons_cons] using hm) h3
    simp [this]

theorem adjust_self : ∀ (vs : List V), adjust vs.length vs = vs
  | [] => rfl
  | v :: vs => by simp only [List.length_cons, adjust, List.tail_cons, adjust_self vs]; rfl

theorem args_append {c : Cx H} {ρ : Env} {va : List V} {fs : List Ex} : ∀ (es : List Ex) (s : State H), (fs = [] → lastMany es = false) →
    args c ρ va (es ++ fs) s = (args c ρ va es s).bind fun vs t => (args c ρ va fs t).bind fun us u => .ok (adjust es.length vs ++ us) u
  | [], s, _ => by
    simp only [List.nil_append, args, R.bind, List.length_nil, adjust]
    cases args c ρ va fs s <;> rfl
  | [e], s, hb => by
    cases fs with
    | nil =>
      simp only [List.append_nil, args]
      have hm : e.multi = false := by simpa [lastMany] using hb rfl
      have := @vals_one H c ρ va e hm s
      revert this
      cases vals c ρ va e s with
      | out t => intro _; rfl
      | err t => intro _; rfl
      | ok vs t =>
        intro h
        have h1 := h rfl
        match vs, h1 with
        | [v], _ => rfl
    | cons f fs =>
      simp only [List.cons_append, List.nil_append, args]
      cases vals c ρ va e s with
      | out t => rfl
      | err t => rfl
      | ok vs t => cases args c ρ va (f :: fs) t <;> rfl
  | e :: e' :: es, s, hb => by
    have ih := args_append (c := c) (ρ := ρ) (va := va) (fs := fs) (e' :: es)
    simp only [List.cons_append] at ih ⊢
    simp only [args, bind_assoc]
    congr 1
    funext vs t
    rw [ih t (fun h => by simpa [lastMany, List.getLast?_cons_cons] using hb h)]
    simp only [bind_assoc]
    congr 1

end

/-! ### What declarations create -/

section
variable {H : Type}

/-- The value given to a variable. -/
def look (xs : List Nat) (vs : List V) (y : Nat) : V := (vs[xs.idxOf y]?).getD .nil

theorem alloc_env : ∀ (xs : List Nat) (vs : List V) (ρ : Env) (s : State H), xs.Nodup → ∀ y,
    (alloc xs vs ρ s).1 y = if y ∈ xs then some (s.cells y).length else ρ y
  | [], _, _, _, _, y => by simp [alloc]
  | x :: xs, vs, ρ, s, hn, y => by
    obtain ⟨h1, h2⟩ := List.nodup_cons.mp hn
    simp only [alloc]
    rw [alloc_env xs _ _ _ h2 y]
    by_cases hx : y = x
    · subst hx
      simp [h1, upd_self]
    · simp [hx, upd_of_ne _ _ hx]

theorem alloc_cells : ∀ (xs : List Nat) (vs : List V) (ρ : Env) (s : State H), xs.Nodup → ∀ y,
    (alloc xs vs ρ s).2.cells y = if y ∈ xs then s.cells y ++ [look xs vs y] else s.cells y
  | [], _, _, _, _, y => by simp [alloc]
  | x :: xs, vs, ρ, s, hn, y => by
    obtain ⟨h1, h2⟩ := List.nodup_cons.mp hn
    simp only [alloc]
    rw [alloc_cells xs _ _ _ h2 y]
    by_cases hx : y = x
    · subst hx
      simp only [h1, if_false, upd_self, List.mem_cons, true_or, if_true, look, List.idxOf_cons_self]
      cases vs <;> rfl
    · have : look (x :: xs) vs y = look xs vs.tail y := by
        simp only [look]
        rw [List.idxOf_cons_ne _ (fun h => hx h.symm)]
        cases vs <;> simp
      simp [hx, upd_of_ne _ _ hx, this]

theorem alloc_clos : ∀ (xs : List Nat) (vs : List V) (ρ : Env) (s : State H), (alloc xs vs ρ s).2.clos = s.clos
  | [], _, _, _ => rfl
  | x :: xs, vs, ρ, s => by simp only [alloc]; rw [alloc_clos xs]

theorem alloc_heap : ∀ (xs : List Nat) (vs : List V) (ρ : Env) (s : State H), (alloc xs vs ρ s).2.heap = s.heap
  | [], _, _, _ => rfl
  | x :: xs, vs, ρ, s => by simp only [alloc]; rw [alloc_heap xs]

theorem adjust_get (n : Nat) (vs : List V) (i : Nat) (h : i < n) : ((adjust n vs)[i]?).getD .nil = (vs[i]?).getD .nil := by
  induction n generalizing vs i with
  | zero => omega
  | succ n ih =>
    cases i with
    | zero => cases vs <;> rfl
    | succ i =>
      simp only [adjust, List.getElem?_cons_succ]
      rw [ih _ _ (by omega)]
      cases vs <;> simp

theorem mem_both {xs ys : List Nat} {n y : Nat} : y ∈ both xs n ys ↔ y ∈ xs ∨ y ∈ ys := by
  have : y ∈ xs ↔ y ∈ xs.take n ∨ y ∈ xs.drop n := by
    conv => lhs; rw [← List.take_append_drop n xs]
    exact List.mem_append
  rw [this]
  simp only [both, List.mem_append]
  constructor
  · rintro ((h | h) | h)
    · exact Or.inl (Or.inl h)
    · exact Or.inr h
    · exact Or.inl (Or.inr h)
  · rintro ((h | h) | h)
    · exact Or.inl (Or.inl h)
    · exact Or.inr h
    · exact Or.inl (Or.inr h)

theorem both_perm (xs : List Nat) (n : Nat) (ys : List Nat) : (both xs n ys).Perm (xs ++ ys) := by
  have h : (xs ++ ys) = xs.take n ++ (xs.drop n ++ ys) := by rw [← List.append_assoc, List.take_append_drop]
  rw [h, both, List.append_assoc]
  exact List.Perm.append_left _ List.perm_append_comm

theorem both_nodup {xs ys : List Nat} {n : Nat} (h : (xs ++ ys).Nodup) : (both xs n ys).Nodup := (both_perm xs n ys).nodup_iff.mpr h

theorem look_both {xs ys : List Nat} {es fs : List Ex} {vs us : List V} (h : May nm xs es ys fs)
    (hv : lastMany es = false → vs.length = es.length) (hu : lastMany fs = false → us.length = fs.length) (y : Nat) :
    (y ∈ xs → look (both xs es.length ys) (adjust es.length vs ++ us) y = look xs vs y) ∧
    (y ∈ ys → look (both xs es.length ys) (adjust es.length vs ++ us) y = look ys us y) := by
  have hlen := adjust_length es.length vs
  have htl : (xs.take es.length).length = es.length := by simp [h.enough]
  have hdis : ∀ z, z ∈ xs → z ∈ ys → False := by
    intro z h1 h2
    exact (List.nodup_append.mp h.nodup).2.2 z h1 z h2 rfl
  have hxn : xs.Nodup := (List.nodup_append.mp h.nodup).1
  have hsplit : xs = xs.take es.length ++ xs.drop es.length := (List.take_append_drop _ _).symm
  constructor
  · intro hy
    simp only [look, both]
    by_cases ht : y ∈ xs.take es.length
    · have h1 : List.idxOf y (xs.take es.length ++ ys ++ xs.drop es.length) = List.idxOf y (xs.take es.length) := by
        rw [List.append_assoc, List.idxOf_append_of_mem ht]
      have h2 : List.idxOf y xs = List.idxOf y (xs.take es.length) := by
        conv => lhs; rw [hsplit]
        exact List.idxOf_append_of_mem ht
      have h3 : List.idxOf y (xs.take es.length) < es.length := by
        have := List.idxOf_lt_length_of_mem ht
        omega
      rw [h1, h2, List.getElem?_append_left (by omega)]
      exact adjust_get _ _ _ h3
    · have hny : y ∉ ys := fun h' => hdis y hy h'
      have hd : y ∈ xs.drop es.length := by
        rw [hsplit] at hy
        exact (List.mem_append.mp hy).resolve_left ht
      have hlt : es.length < xs.length := by
        apply Classical.byContradiction
        intro hc
        rw [List.drop_eq_nil_of_le (by omega)] at hd
        cases hd
      obtain ⟨q1, q2, q3⟩ := h.few hlt
      have h1 : List.idxOf y (xs.take es.length ++ ys ++ xs.drop es.length) =
          List.idxOf y (xs.drop es.length) + (es.length + ys.length) := by
        rw [List.idxOf_append_of_notMem (by simp only [List.mem_append, not_or]; exact ⟨ht, hny⟩)]
        simp only [List.length_append, htl]
        omega
      have h2 : List.idxOf y xs = List.idxOf y (xs.drop es.length) + es.length := by
        conv => lhs; rw [hsplit]
        rw [List.idxOf_append_of_notMem ht, htl]
        omega
      rw [h1, h2, List.getElem?_eq_none (by simp only [List.length_append, hlen, hu q2]; omega),
        List.getElem?_eq_none (by rw [hv q1]; omega)]
  · intro hy
    have hny : y ∉ xs := fun h' => hdis y h' hy
    have ht : y ∉ xs.take es.length := fun h' => hny (List.mem_of_mem_take h')
    simp only [look, both]
    have h1 : List.idxOf y (xs.take es.length ++ ys ++ xs.drop es.length) = es.length + List.idxOf y ys := by
      rw [List.append_assoc, List.idxOf_append_of_notMem ht, List.idxOf_append_of_mem hy, htl]
    rw [h1, List.getElem?_append_right (by omega), hlen]
    congr 2
    omega

end

end Verif.Core.Mrg
