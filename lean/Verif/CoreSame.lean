import Verif.MergeProgRel
/-
Programs of `LuaCore` that differ in parentheses that do not matter and in signs of constants do the same.
-/
namespace Verif.Core.Eqv
open Spec

mutual
/-- `all` tells whether all values of the expression count, or only the first. -/
inductive QEx (lang : Lang) : Bool → Ex → Ex → Prop where
  | const (a v) : QEx lang a (.const v) (.const v)
  | var (a x) : QEx lang a (.var x) (.var x)
  | dots (a) : QEx lang a .dots .dots
  | drop {a e e'} : (a = true → e.multi = false) → QEx lang a e e' → QEx lang a (.group e) e'
  | group {a e e'} : QEx lang false e e' → QEx lang a (.group e) (.group e')
  | un {a e e'} (o) : QEx lang false e e' → QEx lang a (.un o e) (.un o e')
  | sign {a e v v' x r} (o) : QEx lang false e (.const v) → LV.repr lang v = some x → rtUn lang o x = some r → LV.repr lang v' = some r →
      QEx lang a (.un o e) (.const v')
  | bin {a l l' r r'} (o) : QEx lang false l l' → QEx lang false r r' → QEx lang a (.bin o l r) (.bin o l' r')
  | builtin {a es es'} (f) : QEs lang true es es' → QEx lang a (.builtin f es) (.builtin f es')
  | call {a f f' es es'} : QEx lang false f f' → QEs lang true es es' → QEx lang a (.call f es) (.call f' es')
  | index {a e e' k k'} : QEx lang false e e' → QEx lang false k k' → QEx lang a (.index e k) (.index e' k')
  | op {a es es'} (k m) : QEs lang true es es' → QEx lang a (.op k m es) (.op k m es')
  | func {a b b'} (ps d) : QBl lang b b' → QEx lang a (.func ps d b) (.func ps d b')
inductive QEs (lang : Lang) : Bool → List Ex → List Ex → Prop where
  | nil (a) : QEs lang a [] []
  | last {a e e'} : QEx lang a e e' → QEs lang a [e] [e']
  | cons {a e e' d d' es es'} : QEx lang false e e' → QEs lang a (d :: es) (d' :: es') → QEs lang a (e :: d :: es) (e' :: d' :: es')
inductive QSt (lang : Lang) : St → St → Prop where
  | locals {a xs es es'} : (a = false → xs.length ≤ es.length) → QEs lang a es es' → QSt lang (.locals xs es) (.locals xs es')
  | localFn {b b'} (x ps d) : QBl lang b b' → QSt lang (.localFn x ps d b) (.localFn x ps d b')
  | assign {a ts ts' es es'} : (a = false → ts.length ≤ es.length) → QTs lang ts ts' → QEs lang a es es' →
      QSt lang (.assign ts es) (.assign ts' es')
  | eval {e e'} : QEx lang false e e' → QSt lang (.eval e) (.eval e')
  | ret {es es'} : QEs lang true es es' → QSt lang (.ret es) (.ret es')
  | brk : QSt lang .brk .brk
  | doB {b b'} : QBl lang b b' → QSt lang (.doB b) (.doB b')
  | whileS {e e' b b'} : QEx lang false e e' → QBl lang b b' → QSt lang (.whileS e b) (.whileS e' b')
  | repeatS {b b' e e'} : QBl lang b b' → QEx lang false e e' → QSt lang (.repeatS b e) (.repeatS b' e')
  | forNum {es es' b b'} (x) : QEs lang true es es' → QBl lang b b' → QSt lang (.forNum x es b) (.forNum x es' b')
  | forIn {a es es' b b'} (xs) : (a = false → 3 ≤ es.length) → QEs lang a es es' → QBl lang b b' → QSt lang (.forIn xs es b) (.forIn xs es' b')
  | ifS {e e' t t' f f'} : QEx lang false e e' → QBl lang t t' → QEl lang f f' → QSt lang (.ifS e t f) (.ifS e' t' f')
inductive QBl (lang : Lang) : List St → List St → Prop where
  | nil : QBl lang [] []
  | cons {s s' b b'} : QSt lang s s' → QBl lang b b' → QBl lang (s :: b) (s' :: b')
inductive QEl (lang : Lang) : El → El → Prop where
  | none : QEl lang .none .none
  | else_ {b b'} : QBl lang b b' → QEl lang (.else_ b) (.else_ b')
  | elseif {e e' t t' f f'} : QEx lang false e e' → QBl lang t t' → QEl lang f f' → QEl lang (.elseif e t f) (.elseif e' t' f')
inductive QTg (lang : Lang) : Tg → Tg → Prop where
  | loc (x) : QTg lang (.loc x) (.loc x)
  | put {es es'} (k) : QEs lang true es es' → QTg lang (.put k es) (.put k es')
inductive QTs (lang : Lang) : List Tg → List Tg → Prop where
  | nil : QTs lang [] []
  | cons {t t' ts ts'} : QTg lang t t' → QTs lang ts ts' → QTs lang (t :: ts) (t' :: ts')
end

variable {H : Type} {α β : Type} {lang : Lang}

/-! ### States and outcomes -/

structure CloR (lang : Lang) (f g : Clo) : Prop where
  ps : f.ps = g.ps
  dots : f.dots = g.dots
  env : f.env = g.env
  body : QBl lang f.body g.body

structure SR (lang : Lang) (s t : State H) : Prop where
  cells : s.cells = t.cells
  heap : s.heap = t.heap
  clos : List.Forall₂ (CloR lang) s.clos t.clos

inductive Rel (lang : Lang) (P : α → β → Prop) : R H α → R H β → Prop where
  | out {s t} : SR lang s t → Rel lang P (.out s) (.out t)
  | err {s t} : SR lang s t → Rel lang P (.err s) (.err t)
  | ok {a b s t} : SR lang s t → P a b → Rel lang P (.ok a s) (.ok b t)

theorem Rel.bind {γ δ : Type} {P : α → β → Prop} {Q : γ → δ → Prop} {r : R H α} {r' : R H β} {f : α → State H → R H γ} {g : β → State H → R H δ}
    (h : Rel lang P r r') (hf : ∀ a b s t, SR lang s t → P a b → Rel lang Q (f a s) (g b t)) : Rel lang Q (r.bind f) (r'.bind g) := by
  cases h with
  | out h => exact .out h
  | err h => exact .err h
  | ok h p => exact hf _ _ _ _ h p

theorem Rel.mono {P Q : α → β → Prop} {r : R H α} {r' : R H β} (h : Rel lang P r r') (hp : ∀ a b, P a b → Q a b) : Rel lang Q r r' := by
  cases h with
  | out h => exact .out h
  | err h => exact .err h
  | ok h p => exact .ok h (hp _ _ p)

/-- The values that count: all of them, or the first. -/
def Vals (all : Bool) (vs us : List V) : Prop := if all then vs = us else first vs = first us

theorem Vals.first {a : Bool} {vs us : List V} (h : Vals a vs us) : Core.first vs = Core.first us := by
  cases a
  · exact h
  · exact congrArg _ h

theorem Vals.of_eq {a : Bool} {vs us : List V} (h : vs = us) : Vals a vs us := by subst h; cases a <;> rfl

/-- All values, or the first `n`. -/
def Lists (all : Bool) (n : Nat) (vs us : List V) : Prop := if all then vs = us else ∀ i < n, vs[i]?.getD .nil = us[i]?.getD .nil

theorem first_get (vs : List V) : first vs = vs[0]?.getD .nil := by cases vs <;> rfl
theorem tail_get (vs : List V) (i : Nat) : vs.tail[i]? = vs[i + 1]? := by cases vs <;> simp

theorem Lists.all {n : Nat} {vs us : List V} (h : Lists true n vs us) : vs = us := h
theorem Lists.get {a : Bool} {n : Nat} {vs us : List V} (h : Lists a n vs us) {i : Nat} (hi : i < n) : vs[i]?.getD .nil = us[i]?.getD .nil := by
  cases a
  · exact h i hi
  · rw [show vs = us from h]

abbrev Same : α → α → Prop := fun a b => a = b

/-- Calls behave alike. -/
def ApOk (lang : Lang) (ap : Apply H) : Prop := ∀ f vs s t, SR lang s t → Rel lang Same (ap f vs s) (ap f vs t)

theorem perform_same {ap : Apply H} (hap : ApOk lang ap) : ∀ (a : Act H) {s t : State H}, SR lang s t → Rel lang Same (perform ap a s) (perform ap a t)
  | .fail h, s, t, hs => .err ⟨hs.cells, rfl, hs.clos⟩
  | .ret vs h, s, t, hs => .ok ⟨hs.cells, rfl, hs.clos⟩ rfl
  | .call f args h k, s, t, hs => by
    simp only [perform]
    have := hap f args { s with heap := h } { t with heap := h } ⟨hs.cells, rfl, hs.clos⟩
    generalize ap f args { s with heap := h } = r at this
    generalize ap f args { t with heap := h } = r' at this
    cases this with
    | out h => exact .out h
    | err h => simp only; rw [h.heap]; exact perform_same hap _ h
    | ok h p => simp only; rw [h.heap, p]; exact perform_same hap _ h

theorem alloc_same : ∀ (xs : List Nat) {vs us : List V} (ρ : Env) {s t : State H}, SR lang s t →
    (∀ i < xs.length, vs[i]?.getD .nil = us[i]?.getD .nil) → (alloc xs vs ρ s).1 = (alloc xs us ρ t).1 ∧ SR lang (alloc xs vs ρ s).2 (alloc xs us ρ t).2
  | [], _, _, _, _, _, hs, _ => ⟨rfl, hs⟩
  | x :: xs, vs, us, ρ, s, t, hs, h => by
    simp only [alloc]
    rw [hs.cells, first_get, first_get, h 0 (by simp)]
    refine alloc_same xs _ ⟨rfl, hs.heap, hs.clos⟩ fun i hi => ?_
    rw [tail_get, tail_get]
    exact h (i + 1) (by simpa using hi)

theorem QEs.length {a : Bool} {es es' : List Ex} (h : QEs lang a es es') : es.length = es'.length := by
  induction es generalizing es' with
  | nil => cases h; rfl
  | cons e es ih =>
    cases h with
    | last => rfl
    | cons _ h => simpa using ih h

section
variable {cx : Cx H} {arith : Bool}

mutual
theorem ex_same (hw : cx.w.Ok cx.lang arith) (hap : ApOk cx.lang cx.ap) : ∀ {a : Bool} {e e' : Ex}, QEx cx.lang a e e' → ∀ ρ va s t, SR cx.lang s t →
    Rel cx.lang (Vals a) (vals cx ρ va e s) (vals cx ρ va e' t)
  | _, _, _, .const a v, ρ, va, s, t, hs => by simp only [vals]; exact .ok hs (.of_eq rfl)
  | _, _, _, .var a x, ρ, va, s, t, hs => by
    simp only [vals, read, hs.cells]
    split
    · exact .ok hs (.of_eq rfl)
    · exact .err hs
  | _, _, _, .dots a, ρ, va, s, t, hs => by simp only [vals]; exact .ok hs (.of_eq rfl)
  | a, .group e, _, .drop hm h, ρ, va, s, t, hs => by
    simp only [vals]
    have := ex_same hw hap h ρ va s t hs
    generalize hr : vals cx ρ va e s = r at this
    generalize vals cx ρ va _ t = r' at this
    cases this with
    | out h => exact .out h
    | err h => exact .err h
    | ok h1 p =>
      refine .ok h1 ?_
      cases a with
      | false => exact p
      | true =>
        have hl := Mrg.vals_one (hm rfl) hr
        cases (show _ = _ from p)
        obtain ⟨v, rfl⟩ := List.length_eq_one_iff.mp hl
        rfl
  | _, .group e, _, .group h, ρ, va, s, t, hs => by
    simp only [vals]
    exact (ex_same hw hap h ρ va s t hs).bind fun _ _ _ _ h1 p => .ok h1 (.of_eq (by rw [p.first]))
  | _, .un o e, _, .un _ h, ρ, va, s, t, hs => by
    simp only [vals]
    refine (ex_same hw hap h ρ va s t hs).bind fun _ _ _ _ h1 p => ?_
    rw [p.first, h1.heap]
    exact (perform_same hap _ h1).bind fun _ _ _ _ h2 q => .ok h2 (.of_eq (by rw [q]))
  | _, .un o e, .const v', .sign (v := v) (x := x) (r := r) _ h h1 h2 h3, ρ, va, s, t, hs => by
    have := ex_same hw hap h ρ va s t hs
    simp only [vals] at this ⊢
    generalize vals cx ρ va e s = o' at this
    cases this with
    | ok hs p =>
      simp only [R.bind]
      have p : first _ = lit cx.lang v := p
      have e1 : lit cx.lang v = .base x := by simp only [lit, h1]; rfl
      have e2 : lit cx.lang v' = .base r := by simp only [lit, h3]; rfl
      rw [p, e1, hw.un o _ _ _ h2, e2]
      exact .ok ⟨hs.cells, hs.heap, hs.clos⟩ (.of_eq rfl)
  | _, .bin o l r, _, .bin _ hl hr, ρ, va, s, t, hs => by
    simp only [vals]
    refine (ex_same hw hap hl ρ va s t hs).bind fun _ _ s1 t1 h1 p => ?_
    rw [p.first]
    split
    · exact .ok h1 (.of_eq rfl)
    · refine (ex_same hw hap hr ρ va s1 t1 h1).bind fun _ _ _ _ h2 q => ?_
      rw [q.first]
      split
      · exact .ok h2 (.of_eq rfl)
      · rw [h2.heap]
        exact (perform_same hap _ h2).bind fun _ _ _ _ h3 q => .ok h3 (.of_eq (by rw [q]))
  | _, .builtin f es, _, .builtin _ h, ρ, va, s, t, hs => by
    simp only [vals]
    refine (es_same hw hap h ρ va s t hs).bind fun _ _ _ _ h1 p => ?_
    rw [p.all, h1.heap]
    exact (perform_same hap _ h1).mono fun _ _ h => .of_eq h
  | _, .call f es, _, .call hf h, ρ, va, s, t, hs => by
    simp only [vals]
    refine (ex_same hw hap hf ρ va s t hs).bind fun _ _ s1 t1 h1 p => ?_
    refine (es_same hw hap h ρ va s1 t1 h1).bind fun _ _ _ _ h2 q => ?_
    rw [p.first, q.all]
    exact (hap _ _ _ _ h2).mono fun _ _ h => .of_eq h
  | _, .index e k, _, .index he hk, ρ, va, s, t, hs => by
    simp only [vals]
    refine (ex_same hw hap he ρ va s t hs).bind fun _ _ s1 t1 h1 p => ?_
    refine (ex_same hw hap hk ρ va s1 t1 h1).bind fun _ _ _ _ h2 q => ?_
    rw [p.first, q.first, h2.heap]
    exact (perform_same hap _ h2).bind fun _ _ _ _ h3 q => .ok h3 (.of_eq (by rw [q]))
  | _, .op k m es, _, .op _ _ h, ρ, va, s, t, hs => by
    simp only [vals]
    refine (es_same hw hap h ρ va s t hs).bind fun _ _ _ _ h1 p => ?_
    rw [p.all, h1.heap]
    exact (perform_same hap _ h1).bind fun _ _ _ _ h3 q => .ok h3 (.of_eq (by rw [q]))
  | _, .func ps d b, _, .func _ _ h, ρ, va, s, t, hs => by
    simp only [vals]
    rw [hs.clos.length_eq]
    exact .ok ⟨hs.cells, hs.heap, List.rel_append hs.clos (.cons ⟨rfl, rfl, rfl, h⟩ .nil)⟩ (.of_eq rfl)
theorem es_same (hw : cx.w.Ok cx.lang arith) (hap : ApOk cx.lang cx.ap) : ∀ {a : Bool} {es es' : List Ex}, QEs cx.lang a es es' → ∀ ρ va s t,
    SR cx.lang s t → Rel cx.lang (Lists a es.length) (args cx ρ va es s) (args cx ρ va es' t)
  | _, _, _, .nil a, ρ, va, s, t, hs => by
    simp only [args]
    refine .ok hs ?_
    cases a
    · intro i _; rfl
    · rfl
  | a, [e], _, .last h, ρ, va, s, t, hs => by
    simp only [args]
    refine (ex_same hw hap h ρ va s t hs).mono fun vs us p => ?_
    cases a
    · intro i hi
      obtain rfl : i = 0 := by simpa using hi
      rw [← first_get, ← first_get]
      exact p
    · exact p
  | a, e :: d :: es, _, .cons h1 h2, ρ, va, s, t, hs => by
    simp only [args]
    refine (ex_same hw hap h1 ρ va s t hs).bind fun _ _ s1 t1 h3 p => ?_
    refine (es_same hw hap h2 ρ va s1 t1 h3).bind fun _ _ _ _ h4 q => .ok h4 ?_
    rw [p.first]
    cases a
    · intro i hi
      cases i with
      | zero => rfl
      | succ i => exact q i (by simpa using hi)
    · exact congrArg _ q
end

theorem ts_same (hw : cx.w.Ok cx.lang arith) (hap : ApOk cx.lang cx.ap) : ∀ {ts ts' : List Tg}, QTs cx.lang ts ts' → ∀ ρ va s t, SR cx.lang s t →
    Rel cx.lang (fun ps qs => ps = qs ∧ ps.length = ts.length) (places cx ρ va ts s) (places cx ρ va ts' t)
  | _, _, .nil, ρ, va, s, t, hs => by simp only [places]; exact .ok hs ⟨rfl, rfl⟩
  | _, _, .cons (.loc x) h, ρ, va, s, t, hs => by
    simp only [places]
    exact (ts_same hw hap h ρ va s t hs).bind fun _ _ _ _ h1 p => .ok h1 ⟨by rw [p.1], by simp [p.2]⟩
  | _, _, .cons (.put k he) h, ρ, va, s, t, hs => by
    simp only [places]
    refine (es_same hw hap he ρ va s t hs).bind fun _ _ s1 t1 h1 p => ?_
    exact (ts_same hw hap h ρ va s1 t1 h1).bind fun _ _ _ _ h1 q => .ok h1 ⟨by rw [p.all, q.1], by simp [q.2]⟩

theorem store_same (hap : ApOk cx.lang cx.ap) (ρ : Env) : ∀ (ps : List Place) {vs us : List V} {s t : State H}, SR cx.lang s t →
    (∀ i < ps.length, vs[i]?.getD .nil = us[i]?.getD .nil) → Rel cx.lang Same (store cx ρ ps vs s) (store cx ρ ps us t)
  | [], _, _, _, _, hs, _ => by simp only [store]; exact .ok hs rfl
  | .loc x :: ps, vs, us, s, t, hs, h => by
    simp only [store]
    split
    · rw [hs.cells, first_get, first_get, h 0 (by simp)]
      refine store_same hap ρ ps ⟨rfl, hs.heap, hs.clos⟩ fun i hi => ?_
      rw [tail_get, tail_get]
      exact h (i + 1) (by simpa using hi)
    · exact .err hs
  | .put k ws :: ps, vs, us, s, t, hs, h => by
    simp only [store]
    rw [hs.heap, first_get, first_get, h 0 (by simp)]
    refine (perform_same hap _ hs).bind fun _ _ _ _ h1 _ => store_same hap ρ ps h1 fun i hi => ?_
    rw [tail_get, tail_get]
    exact h (i + 1) (by simpa using hi)

theorem loop_same {γ : Type} {f g : γ → State H → R H (γ ⊕ Ctl)} (h : ∀ a s t, SR lang s t → Rel lang Same (f a s) (g a t)) :
    ∀ (n : Nat) (a : γ) {s t : State H}, SR lang s t → Rel lang Same (loop f n a s) (loop g n a t)
  | 0, _, _, _, hs => .out hs
  | n + 1, a, s, t, hs => by
    simp only [loop]
    refine (h a s t hs).bind fun r r' s1 t1 h1 p => ?_
    cases p
    cases r with
    | inl a => exact loop_same h n a h1
    | inr k => exact .ok h1 rfl

theorem QTs.length {ts ts' : List Tg} (h : QTs lang ts ts') : ts.length = ts'.length := by
  induction ts generalizing ts' with
  | nil => cases h; rfl
  | cons e es ih => cases h with | cons _ h => simpa using ih h

theorem lists_le {a : Bool} {n k : Nat} {vs us : List V} (h : Lists a n vs us) (hk : a = false → k ≤ n) {i : Nat} (hi : i < k) :
    vs[i]?.getD .nil = us[i]?.getD .nil := by
  cases a
  · exact h i (by have := hk rfl; omega)
  · rw [show vs = us from h]

mutual
theorem st_same (hw : cx.w.Ok cx.lang arith) (hap : ApOk cx.lang cx.ap) : ∀ {st st' : St}, QSt cx.lang st st' → ∀ va ρ s t, SR cx.lang s t →
    Rel cx.lang Same (exec cx va st ρ s) (exec cx va st' ρ t)
  | .locals xs es, _, .locals hl h, va, ρ, s, t, hs => by
    simp only [exec]
    refine (es_same hw hap h ρ va s t hs).bind fun vs us s1 t1 h1 p => ?_
    obtain ⟨h2, h3⟩ := alloc_same xs ρ h1 fun i hi => lists_le p hl hi
    exact .ok h3 (by rw [h2])
  | .localFn x ps d b, _, .localFn _ _ _ h, va, ρ, s, t, hs => by
    simp only [exec]
    rw [hs.clos.length_eq]
    obtain ⟨h2, h3⟩ := alloc_same (vs := [.clo t.clos.length]) (us := [.clo t.clos.length]) [x] ρ hs fun i _ => rfl
    refine .ok ⟨h3.cells, h3.heap, List.rel_append hs.clos (.cons ⟨rfl, rfl, h2, h⟩ .nil)⟩ (by rw [h2])
  | .assign ts es, _, .assign hl ht h, va, ρ, s, t, hs => by
    simp only [exec]
    refine (ts_same hw hap ht ρ va s t hs).bind fun ps qs s1 t1 h1 p => ?_
    refine (es_same hw hap h ρ va s1 t1 h1).bind fun vs us s2 t2 h2 q => ?_
    rw [← p.1]
    exact (store_same hap ρ ps h2 fun i hi => lists_le q hl (by rw [← p.2]; exact hi)).bind fun _ _ _ _ h3 _ => .ok h3 rfl
  | .eval e, _, .eval h, va, ρ, s, t, hs => by
    simp only [exec]
    exact (ex_same hw hap h ρ va s t hs).bind fun _ _ _ _ h1 _ => .ok h1 rfl
  | .ret es, _, .ret h, va, ρ, s, t, hs => by
    simp only [exec]
    exact (es_same hw hap h ρ va s t hs).bind fun _ _ _ _ h1 p => .ok h1 (by rw [p.all])
  | .brk, _, .brk, va, ρ, s, t, hs => by simp only [exec]; exact .ok hs rfl
  | .doB b, _, .doB h, va, ρ, s, t, hs => by
    simp only [exec]
    exact (bl_same hw hap h va ρ s t hs).bind fun _ _ _ _ h1 p => .ok h1 (by rw [p])
  | .whileS e b, _, .whileS he hb, va, ρ, s, t, hs => by
    simp only [exec]
    refine (loop_same (fun _ s t hs => ?_) _ _ hs).bind fun _ _ _ _ h1 p => .ok h1 (by rw [p])
    refine (ex_same hw hap he ρ va s t hs).bind fun _ _ s1 t1 h1 p => ?_
    rw [p.first]
    split
    · exact (bl_same hw hap hb va ρ s1 t1 h1).bind fun _ _ _ _ h1 p => .ok h1 (by rw [p])
    · exact .ok h1 rfl
  | .repeatS b e, _, .repeatS hb he, va, ρ, s, t, hs => by
    simp only [exec]
    refine (loop_same (fun _ s t hs => ?_) _ _ hs).bind fun _ _ _ _ h1 p => .ok h1 (by rw [p])
    refine (bl_same hw hap hb va ρ s t hs).bind fun p p' s1 t1 h1 e => ?_
    cases e
    split
    · exact (ex_same hw hap he _ va s1 t1 h1).bind fun _ _ _ _ h2 q => .ok h2 (by rw [q.first])
    · exact .ok h1 rfl
    · exact .ok h1 rfl
  | .forNum x es b, _, .forNum _ he hb, va, ρ, s, t, hs => by
    simp only [exec]
    refine (es_same hw hap he ρ va s t hs).bind fun vs us s1 t1 h1 p => ?_
    cases p.all
    refine (loop_same (fun i s t hs => ?_) _ _ h1).bind fun _ _ _ _ h1 p => .ok h1 (by rw [p])
    split
    · exact .err hs
    · exact .ok hs rfl
    · rename_i v _
      obtain ⟨h2, h3⟩ := alloc_same (vs := [v]) (us := [v]) [x] ρ hs fun i _ => rfl
      rw [h2]
      exact (bl_same hw hap hb va _ _ _ h3).bind fun _ _ _ _ h1 p => .ok h1 (by rw [p])
  | .forIn xs es b, _, .forIn _ hl he hb, va, ρ, s, t, hs => by
    simp only [exec]
    refine (es_same hw hap he ρ va s t hs).bind fun vs us s1 t1 h1 p => ?_
    have e0 : first vs = first us := by rw [first_get, first_get]; exact lists_le p hl (by decide)
    have e1 : first vs.tail = first us.tail := by rw [first_get, first_get, tail_get, tail_get]; exact lists_le p hl (by decide)
    have e2 : first vs.tail.tail = first us.tail.tail := by
      rw [first_get, first_get, tail_get, tail_get, tail_get, tail_get]; exact lists_le p hl (by decide)
    rw [e0, e1, e2]
    refine (loop_same (fun i s t hs => ?_) _ _ h1).bind fun _ _ _ _ h1 p => .ok h1 (by rw [p])
    refine (hap _ _ _ _ hs).bind fun ws ws' s2 t2 h2 q => ?_
    cases q
    split
    · exact .ok h2 rfl
    · obtain ⟨h3, h4⟩ := alloc_same (vs := ws) (us := ws) xs ρ h2 fun i _ => rfl
      rw [h3]
      exact (bl_same hw hap hb va _ _ _ h4).bind fun _ _ _ _ h1 p => .ok h1 (by rw [p])
  | .ifS e b f, _, .ifS he hb hf, va, ρ, s, t, hs => by
    simp only [exec]
    refine (ex_same hw hap he ρ va s t hs).bind fun _ _ s1 t1 h1 p => ?_
    rw [p.first]
    split
    · exact (bl_same hw hap hb va ρ s1 t1 h1).bind fun _ _ _ _ h1 p => .ok h1 (by rw [p])
    · exact (el_same hw hap hf va ρ s1 t1 h1).bind fun _ _ _ _ h1 p => .ok h1 (by rw [p])
theorem bl_same (hw : cx.w.Ok cx.lang arith) (hap : ApOk cx.lang cx.ap) : ∀ {b b' : List St}, QBl cx.lang b b' → ∀ va ρ s t, SR cx.lang s t →
    Rel cx.lang Same (run cx va b ρ s) (run cx va b' ρ t)
  | _, _, .nil, va, ρ, s, t, hs => by simp only [run]; exact .ok hs rfl
  | st :: b, _, .cons h hb, va, ρ, s, t, hs => by
    simp only [run]
    refine (st_same hw hap h va ρ s t hs).bind fun p p' s1 t1 h1 e => ?_
    cases e
    split
    · exact bl_same hw hap hb va _ s1 t1 h1
    · exact .ok h1 rfl
theorem el_same (hw : cx.w.Ok cx.lang arith) (hap : ApOk cx.lang cx.ap) : ∀ {f f' : El}, QEl cx.lang f f' → ∀ va ρ s t, SR cx.lang s t →
    Rel cx.lang Same (otherwise cx va f ρ s) (otherwise cx va f' ρ t)
  | _, _, .none, va, ρ, s, t, hs => by simp only [otherwise]; exact .ok hs rfl
  | .else_ b, _, .else_ h, va, ρ, s, t, hs => by
    simp only [otherwise]
    exact (bl_same hw hap h va ρ s t hs).bind fun _ _ _ _ h1 p => .ok h1 (by rw [p])
  | .elseif e b f, _, .elseif he hb hf, va, ρ, s, t, hs => by
    simp only [otherwise]
    refine (ex_same hw hap he ρ va s t hs).bind fun _ _ s1 t1 h1 p => ?_
    rw [p.first]
    split
    · exact (bl_same hw hap hb va ρ s1 t1 h1).bind fun _ _ _ _ h1 p => .ok h1 (by rw [p])
    · exact el_same hw hap hf va ρ s1 t1 h1
end

end

theorem apply_same {w : World H} {arith : Bool} (hw : w.Ok lang arith) : ∀ n, ApOk lang (apply w lang n)
  | 0 => fun f vs s t hs => by simp only [apply]; exact .out hs
  | n + 1 => by
    have ih := apply_same hw n
    intro f vs s t hs
    cases f with
    | clo i =>
      simp only [apply]
      rcases h1 : s.clos[i]? with _ | c
      · have : t.clos[i]? = none := by
          rw [List.getElem?_eq_none_iff] at h1 ⊢
          rw [← hs.clos.length_eq]; exact h1
        rw [this]
        exact .err hs
      · obtain ⟨c', h2, hc⟩ : ∃ c', t.clos[i]? = some c' ∧ CloR lang c c' := by
          obtain ⟨hi, rfl⟩ := List.getElem?_eq_some_iff.mp h1
          have hi' : i < t.clos.length := by rw [← hs.clos.length_eq]; exact hi
          exact ⟨_, List.getElem?_eq_getElem hi', List.Forall₂.get hs.clos hi hi'⟩
        rw [h2]
        simp only
        obtain ⟨h3, h4⟩ := alloc_same (vs := vs) (us := vs) c.ps c.env hs fun i _ => rfl
        rw [← hc.ps, ← hc.env, ← hc.dots, ← h3]
        exact (bl_same (cx := ⟨w, lang, n, apply w lang n⟩) hw ih hc.body _ _ _ _ h4).bind fun _ _ _ _ h1 p => .ok h1 (by rw [p])
    | base x => simp only [apply]; rw [hs.heap]; exact perform_same ih _ hs
    | obj x => simp only [apply]; rw [hs.heap]; exact perform_same ih _ hs

/-- Related programs do the same. -/
theorem play_same {w : World H} {arith : Bool} (hw : w.Ok lang arith) {b b' : List St} (h : QBl lang b b') (n : Nat) (va : List V)
    (drive : List V → H → Act H) (hp : H) : (play w lang n va drive b hp).seen = (play w lang n va drive b' hp).seen := by
  have : Rel lang Same (play w lang n va drive b hp) (play w lang n va drive b' hp) := by
    unfold play
    refine (bl_same (cx := ⟨w, lang, n, apply w lang n⟩) hw (apply_same hw n) h va _ _ _ ⟨rfl, rfl, .nil⟩).bind fun p p' s t hs e => ?_
    cases e
    rw [hs.heap]
    exact perform_same (apply_same hw n) _ hs
  generalize play w lang n va drive b hp = r at this ⊢
  generalize play w lang n va drive b' hp = r' at this ⊢
  cases this with
  | out h => simp only [R.seen, h.heap]
  | err h => simp only [R.seen, h.heap]
  | ok h p => simp only [R.seen, h.heap, p]

end Verif.Core.Eqv
