import Verif.FoldProg
import Verif.FoldTreeLemmas
import Verif.Props.FoldAssign
/-
Helpers for C74: a program and its folded form, run side by side.  `G` gives the final constants of all variables: those of `G` have the
same value in all instances of the original and are never read in the folded program.
-/
namespace Verif.Core
open Spec

variable {H : Type} {α α' β β' : Type}

/-! ### What is assumed of a program, with the constants `Γ` known at each point -/

/-- The marked variables are those `G` has constants for. -/
def Agree (G : Nat → Option LV) : List Nat → List Bool → List (Option LV) → Prop
  | x :: xs, m :: ms, ks => G x = (if m then ks.headD (some .nil) else none) ∧ Agree G xs ms ks.tail
  | _, _, _ => True

/-- No source that may give several values becomes the last one while it has to feed more than its own target. -/
def NoExpose : List Bool → List Nat → List Ex → Prop
  | m :: ms, _ :: xs, e :: e' :: es =>
    (m = false → unmarked ms (e' :: es) = [] → e.multi = true → unmarked ms xs = []) ∧ NoExpose ms xs (e' :: es)
  | _, _, _ => True

mutual
def Ex.Fine (c : Fold) (G : Nat → Option LV) (m : Bool) (D : List Nat) (Γ : Nat → Option LV) : Ex → Prop
  | .const v => v.Good c.lang
  | .var x => x ∈ D
  | .dots => True
  | .group e => e.Fine c G false D Γ
  | .un _ e => e.Fine c G false D Γ
  | .bin op l r => l.Fine c G false D Γ ∧ r.Fine c G (m && op.logic) D Γ ∧ ((m && op.logic) = true → r.multi = false)
  | .builtin _ es => FineEs c G D Γ es
  | .call f es => f.Fine c G false D Γ ∧ FineEs c G D Γ es
  | .index e k => e.Fine c G false D Γ ∧ k.Fine c G false D Γ
  | .op _ _ es => FineEs c G D Γ es
  | .func ps _ b => (∀ x ∈ ps, G x = none) ∧ FineBl c G (ps ++ D) (forget Γ ps) b
def FineEs (c : Fold) (G : Nat → Option LV) (D : List Nat) (Γ : Nat → Option LV) : List Ex → Prop
  | [] => True
  | [e] => e.Fine c G true D Γ
  | e :: e' :: es => e.Fine c G false D Γ ∧ FineEs c G D Γ (e' :: es)
def St.Fine (c : Fold) (G : Nat → Option LV) (D : List Nat) (Γ : Nat → Option LV) : St → Prop
  | .locals xs es => FineEs c G D Γ es ∧ ∀ p, c.exs Γ es = some p → NoExpose (usedMarks (c.marks xs p.1 p.2) p.1.length) xs p.1 ∧
      Agree G xs (c.marks xs p.1 p.2) p.2
  | .localFn x ps _ b => G x = none ∧ (∀ x ∈ ps, G x = none) ∧ FineBl c G (ps ++ x :: D) (forget (forget Γ [x]) ps) b
  | .assign ts es => FineTs c G D Γ ts ∧ FineEs c G D Γ es
  | .eval e => e.Fine c G false D Γ
  | .ret es => FineEs c G D Γ es
  | .brk => True
  | .doB b => FineBl c G D Γ b
  | .whileS e b => e.Fine c G false D Γ ∧ FineBl c G D Γ b
  | .repeatS b e => FineBl c G D Γ b ∧ ∀ p, c.bl Γ b = some p → e.Fine c G false (scope D b) p.1
  | .forNum x es b => G x = none ∧ FineEs c G D Γ es ∧ FineBl c G (x :: D) (forget Γ [x]) b
  | .forIn xs es b => (∀ x ∈ xs, G x = none) ∧ FineEs c G D Γ es ∧ FineBl c G (xs ++ D) (forget Γ xs) b
  | .ifS e t f => e.Fine c G false D Γ ∧ FineBl c G D Γ t ∧ f.Fine c G D Γ
def FineBl (c : Fold) (G : Nat → Option LV) (D : List Nat) (Γ : Nat → Option LV) : List St → Prop
  | [] => True
  | s :: b => s.Fine c G D Γ ∧ ∀ p, c.st Γ s = some p → FineBl c G (s.decls ++ D) p.1 b
def El.Fine (c : Fold) (G : Nat → Option LV) (D : List Nat) (Γ : Nat → Option LV) : El → Prop
  | .none => True
  | .else_ b => FineBl c G D Γ b
  | .elseif e t f => e.Fine c G false D Γ ∧ FineBl c G D Γ t ∧ f.Fine c G D Γ
def Tg.Fine (c : Fold) (G : Nat → Option LV) (D : List Nat) (Γ : Nat → Option LV) : Tg → Prop
  | .loc x => x ∈ D ∧ G x = none
  | .put _ es => FineEs c G D Γ es
def FineTs (c : Fold) (G : Nat → Option LV) (D : List Nat) (Γ : Nat → Option LV) : List Tg → Prop
  | [] => True
  | t :: ts => t.Fine c G D Γ ∧ FineTs c G D Γ ts
end

/-! ### Relating the two runs -/

section
variable (c : Fold) (G : Nat → Option LV)

/-- What the folder knows of visible variables. -/
def CtxOk (D : List Nat) (Γ : Nat → Option LV) : Prop := ∀ x ∈ D, Γ x = G x ∧ ∀ v, Γ x = some v → v.Good c.lang

/-- Instances are only added. -/
def Le (s t : State H) : Prop := ∀ x, (s.cells x).length ≤ (t.cells x).length

def EnvOk (D : List Nat) (s : State H) (ρ ρ' : Env) : Prop :=
  ∀ x ∈ D, (G x = none → ρ' x = ρ x) ∧ ∃ n, ρ x = some n ∧ n < (s.cells x).length

def CloOk (s : State H) (f f' : Clo) : Prop :=
  f'.ps = f.ps ∧ f'.dots = f.dots ∧ ∃ D Γ Γ', (∀ x ∈ f.ps, G x = none) ∧ EnvOk G D s f.env f'.env ∧ CtxOk c G (f.ps ++ D) Γ ∧
    FineBl c G (f.ps ++ D) Γ f.body ∧ c.bl Γ f.body = some (Γ', f'.body)

structure Sim (s s' : State H) : Prop where
  heap : s'.heap = s.heap
  cells : ∀ x, G x = none → s'.cells x = s.cells x
  consts : ∀ x v, G x = some v → ∀ u ∈ s.cells x, u = lit c.lang v
  length : s'.clos.length = s.clos.length
  clos : ∀ (i : Nat) f, s.clos[i]? = some f → ∃ f', s'.clos[i]? = some f' ∧ CloOk c G s f f'

inductive RelR (s0 : State H) (Q : α → α' → State H → Prop) : R H α → R H α' → Prop where
  | out (t t') : Sim c G t t' → RelR s0 Q (.out t) (.out t')
  | err (t t') : Sim c G t t' → Le s0 t → RelR s0 Q (.err t) (.err t')
  | ok (a a' t t') : Sim c G t t' → Le s0 t → Q a a' t → RelR s0 Q (.ok a t) (.ok a' t')

/-- The values are the same. -/
abbrev RelV (s0 : State H) : R H α → R H α → Prop := RelR c G s0 fun a a' _ => a = a'
end

variable {c : Fold} {G : Nat → Option LV}

theorem Le.refl (s : State H) : Le s s := fun _ => Nat.le_refl _

theorem Le.trans {s t u : State H} (h : Le s t) (k : Le t u) : Le s u := fun x => Nat.le_trans (h x) (k x)

theorem EnvOk.mono {D D' : List Nat} {s t : State H} {ρ ρ' : Env} (h : EnvOk G D s ρ ρ') (hl : Le s t) (hd : ∀ x ∈ D', x ∈ D) :
    EnvOk G D' t ρ ρ' := by
  intro x hx
  obtain ⟨h1, n, h2, h3⟩ := h x (hd x hx)
  exact ⟨h1, n, h2, Nat.lt_of_lt_of_le h3 (hl x)⟩

theorem CloOk.mono {s t : State H} {f f' : Clo} (h : CloOk c G s f f') (hl : Le s t) : CloOk c G t f f' := by
  obtain ⟨h1, h2, D, Γ, Γ', h3, h4, h5⟩ := h
  exact ⟨h1, h2, D, Γ, Γ', h3, h4.mono hl fun _ h => h, h5⟩

theorem Sim.setHeap {s s' : State H} (h : Sim c G s s') (k : H) : Sim c G { s with heap := k } { s' with heap := k } where
  heap := rfl
  cells := h.cells
  consts := h.consts
  length := h.length
  clos := fun i f hf => by
    obtain ⟨f', h1, h2⟩ := h.clos i f hf
    exact ⟨f', h1, h2.mono fun _ => Nat.le_refl _⟩

theorem RelR.bind {s0 : State H} {Q : α → α' → State H → Prop} {Q2 : β → β' → State H → Prop} {r : R H α} {r' : R H α'}
    {f : α → State H → R H β} {f' : α' → State H → R H β'} (h : RelR c G s0 Q r r')
    (hf : ∀ a a' t t', Sim c G t t' → Le s0 t → Q a a' t → RelR c G t Q2 (f a t) (f' a' t')) :
    RelR c G s0 Q2 (r.bind f) (r'.bind f') := by
  cases h with
  | out t t' h => exact .out t t' h
  | err t t' h hl => exact .err t t' h hl
  | ok a a' t t' h hl hq =>
    have := hf a a' t t' h hl hq
    simp only [R.bind]
    revert this
    generalize f a t = x
    generalize f' a' t' = x'
    intro this
    cases this with
    | out t t' h => exact .out t t' h
    | err t t' h hl' => exact .err t t' h (hl.trans hl')
    | ok a a' t t' h hl' hq => exact .ok a a' t t' h (hl.trans hl') hq

theorem RelR.from {s0 s : State H} {Q : α → α' → State H → Prop} {r : R H α} {r' : R H α'} (h : RelR c G s Q r r') (hl : Le s0 s) :
    RelR c G s0 Q r r' := by
  cases h with
  | out t t' h => exact .out t t' h
  | err t t' h hl' => exact .err t t' h (hl.trans hl')
  | ok a a' t t' h hl' hq => exact .ok a a' t t' h (hl.trans hl') hq

theorem RelR.weaken {s0 : State H} {Q Q2 : α → α' → State H → Prop} {r : R H α} {r' : R H α'} (h : RelR c G s0 Q r r')
    (hq : ∀ a a' t, Le s0 t → Q a a' t → Q2 a a' t) : RelR c G s0 Q2 r r' := by
  cases h with
  | out t t' h => exact .out t t' h
  | err t t' h hl => exact .err t t' h hl
  | ok a a' t t' h hl h2 => exact .ok a a' t t' h hl (hq a a' t hl h2)

/-- Also what is known of the folded result. -/
theorem RelR.right {s0 : State H} {Q : α → α' → State H → Prop} {P : α' → Prop} {r : R H α} {r' : R H α'} (h : RelR c G s0 Q r r')
    (hp : ∀ a t, r' = .ok a t → P a) : RelR c G s0 (fun a a' t => Q a a' t ∧ P a') r r' := by
  cases h with
  | out t t' h => exact .out t t' h
  | err t t' h hl => exact .err t t' h hl
  | ok a a' t t' h hl h2 => exact .ok a a' t t' h hl ⟨h2, hp a' t' rfl⟩

/-- Also what is known of the original result. -/
theorem RelR.left {s0 : State H} {Q : α → α' → State H → Prop} {P : α → Prop} {r : R H α} {r' : R H α'} (h : RelR c G s0 Q r r')
    (hp : ∀ a t, r = .ok a t → P a) : RelR c G s0 (fun a a' t => Q a a' t ∧ P a) r r' := by
  cases h with
  | out t t' h => exact .out t t' h
  | err t t' h hl => exact .err t t' h hl
  | ok a a' t t' h hl h2 => exact .ok a a' t t' h hl ⟨h2, hp a t rfl⟩

def ApOk (c : Fold) (G : Nat → Option LV) (ap : Apply H) : Prop := ∀ f vs s s', Sim c G s s' → RelV c G s (ap f vs s) (ap f vs s')

theorem perform_sim {ap : Apply H} (hap : ApOk c G ap) (a : Act H) : ∀ {s s' : State H}, Sim c G s s' →
    RelV c G s (perform ap a s) (perform ap a s') := by
  induction a with
  | fail h => intro s s' hs; exact .err _ _ (hs.setHeap h) fun _ => Nat.le_refl _
  | ret vs h => intro s s' hs; exact .ok _ _ _ _ (hs.setHeap h) (fun _ => Nat.le_refl _) rfl
  | call f vs h k ih =>
    intro s s' hs
    have := hap f vs _ _ (hs.setHeap h)
    simp only [perform]
    revert this
    generalize ap f vs { s with heap := h } = x
    generalize ap f vs { s' with heap := h } = x'
    intro this
    have l0 : Le s { s with heap := h } := fun _ => Nat.le_refl _
    cases this with
    | out t t' h => exact .out t t' h
    | err t t' h hl =>
      simp only [h.heap]
      exact (ih none t.heap h).from (l0.trans hl)
    | ok a a' t t' h hl hq =>
      cases hq
      simp only [h.heap]
      exact (ih (some a) t.heap h).from (l0.trans hl)

/-! ### Expressions -/

theorem Ex.fine_mono {D : List Nat} {Γ : Nat → Option LV} {m : Bool} : ∀ {e : Ex}, e.Fine c G m D Γ → e.Fine c G false D Γ
  | .const _, h => h
  | .var _, h => h
  | .dots, h => h
  | .group _, h => h
  | .un _ _, h => h
  | .bin o l r, h => by
    simp only [Ex.Fine, Bool.false_and, Bool.false_eq_true, false_implies, and_true] at h ⊢
    exact ⟨h.1, Ex.fine_mono h.2.1⟩
  | .builtin _ _, h => h
  | .call _ _, h => h
  | .index _ _, h => h
  | .op _ _ _, h => h
  | .func _ _ _, h => h

theorem bind_ok {r : R H α} {f : α → State H → R H β} {b : β} {t : State H} (h : r.bind f = .ok b t) :
    ∃ a u, r = .ok a u ∧ f a u = .ok b t := by
  cases r with
  | out s => cases h
  | err s => cases h
  | ok a u => exact ⟨a, u, rfl, h⟩

theorem bind_self (r : R H α) : (r.bind fun a s => .ok a s) = r := by cases r <;> rfl

theorem single_of_not_multi {cx : Cx H} {ρ : Env} {va : List V} {e : Ex} {s t : State H} {vs : List V} (hm : e.multi = false)
    (h : vals cx ρ va e s = .ok vs t) : vs = [first vs] := by
  cases e with
  | const v => simp only [vals, R.ok.injEq] at h; rw [← h.1]; rfl
  | var x =>
    simp only [vals] at h
    split at h
    · simp only [R.ok.injEq] at h; rw [← h.1]; rfl
    · cases h
  | dots => cases hm
  | group e =>
    simp only [vals] at h
    obtain ⟨_, _, _, h⟩ := bind_ok h
    simp only [R.ok.injEq] at h; rw [← h.1]; rfl
  | un op e =>
    simp only [vals] at h
    obtain ⟨_, _, _, h⟩ := bind_ok h
    obtain ⟨_, _, _, h⟩ := bind_ok h
    simp only [R.ok.injEq] at h; rw [← h.1]; rfl
  | bin op l r =>
    simp only [vals] at h
    obtain ⟨_, _, _, h⟩ := bind_ok h
    split at h
    · simp only [R.ok.injEq] at h; rw [← h.1]; rfl
    · obtain ⟨_, _, _, h⟩ := bind_ok h
      split at h
      · simp only [R.ok.injEq] at h; rw [← h.1]; rfl
      · obtain ⟨_, _, _, h⟩ := bind_ok h
        simp only [R.ok.injEq] at h; rw [← h.1]; rfl
  | builtin f es => cases hm
  | call f es => cases hm
  | index e k =>
    simp only [vals] at h
    obtain ⟨_, _, _, h⟩ := bind_ok h
    obtain ⟨_, _, _, h⟩ := bind_ok h
    obtain ⟨_, _, _, h⟩ := bind_ok h
    simp only [R.ok.injEq] at h; rw [← h.1]; rfl
  | op k m es =>
    simp only [Ex.multi] at hm
    subst hm
    simp only [vals] at h
    obtain ⟨_, _, _, h⟩ := bind_ok h
    obtain ⟨_, _, _, h⟩ := bind_ok h
    simp only [R.ok.injEq] at h; rw [← h.1]; rfl
  | func ps d b => simp only [vals, R.ok.injEq] at h; rw [← h.1]; rfl

/-- The same first value. -/
abbrev Rel1 (c : Fold) (G : Nat → Option LV) (s0 : State H) : R H (List V) → R H (List V) → Prop :=
  RelR c G s0 fun a a' _ => first a = first a'

theorem RelR.one {s0 : State H} {r r' : R H (List V)} (h : RelV c G s0 r r') : Rel1 c G s0 r r' :=
  h.weaken fun _ _ _ _ h => by rw [h]

section
variable (c G)

/-- What folding an expression guarantees. -/
structure ExOk (cx : Cx H) (D : List Nat) (Γ : Nat → Option LV) (e e' : Ex) (k : Option LV) : Prop where
  one : ∀ va s s' ρ ρ', Sim c G s s' → EnvOk G D s ρ ρ' → Rel1 c G s (vals cx ρ va e s) (vals cx ρ' va e' s')
  all : e.Fine c G true D Γ → ∀ va s s' ρ ρ', Sim c G s s' → EnvOk G D s ρ ρ' →
    RelV c G s (vals cx ρ va e s) (vals cx ρ' va e' s')
  good : ∀ v, k = some v → v.Good c.lang
  known : ∀ v, k = some v → ∀ va s s' ρ ρ', Sim c G s s' → EnvOk G D s ρ ρ' → vals cx ρ va e s = .ok [lit c.lang v] s
end

section
variable {cx : Cx H} {D : List Nat} {Γ : Nat → Option LV} {arith : Bool}

/-- The node is left as rebuilt from its folded children. -/
theorem ExOk.same {e e' : Ex} (h : ∀ va s s' ρ ρ', Sim c G s s' → EnvOk G D s ρ ρ' →
    RelV c G s (vals cx ρ va e s) (vals cx ρ' va e' s')) : ExOk c G cx D Γ e e' none where
  one := fun va s s' ρ ρ' h1 h2 => (h va s s' ρ ρ' h1 h2).one
  all := fun _ => h
  good := fun _ h => by cases h
  known := fun _ h => by cases h

theorem lit_repr {lang : Lang} {v : LV} {x : Val} (h : LV.repr lang v = some x) : lit lang v = .base x := by
  unfold lit; rw [h]; rfl

theorem ExOk.const (hl : cx.lang = c.lang) {e : Ex} {v : LV} (hg : v.Good c.lang)
    (hv : ∀ va s s' ρ ρ', Sim c G s s' → EnvOk G D s ρ ρ' → vals cx ρ va e s = .ok [lit c.lang v] s) :
    ExOk c G cx D Γ e (.const v) (some v) := by
  have h : ∀ va s s' ρ ρ', Sim c G s s' → EnvOk G D s ρ ρ' → RelV c G s (vals cx ρ va e s) (vals cx ρ' va (.const v) s') := by
    intro va s s' ρ ρ' h1 h2
    rw [hv va s s' ρ ρ' h1 h2]
    simp only [vals, hl]
    exact .ok _ _ _ _ h1 (Le.refl s) rfl
  exact ⟨fun va s s' ρ ρ' h1 h2 => (h va s s' ρ ρ' h1 h2).one, fun _ => h, fun _ h => by cases h; exact hg, fun _ h => by cases h; exact hv⟩

/-- The node has a known value. -/
theorem ExOk.set (hl : cx.lang = c.lang) {e e' : Ex} {v : LV} (hg : v.Good c.lang)
    (h : ∀ va s s' ρ ρ', Sim c G s s' → EnvOk G D s ρ ρ' → RelV c G s (vals cx ρ va e s) (vals cx ρ' va e' s'))
    (hv : ∀ va s s' ρ ρ', Sim c G s s' → EnvOk G D s ρ ρ' → vals cx ρ va e s = .ok [lit c.lang v] s) :
    ExOk c G cx D Γ e (c.set e' v).1 (c.set e' v).2 := by
  unfold Fold.set
  split
  · exact ⟨fun va s s' ρ ρ' h1 h2 => (h va s s' ρ ρ' h1 h2).one, fun _ => h, fun _ h => by cases h; exact hg,
      fun _ h => by cases h; exact hv⟩
  · exact .const hl hg hv

theorem stepUn_ok (hl : cx.lang = c.lang) (hw : cx.w.Ok c.lang arith) (hap : ApOk c G cx.ap) {op : UnOp} {e e1 : Ex} {k : Option LV}
    {r : Ex × Option LV} (h : ExOk c G cx D Γ e e1 k) (hr : c.stepUn op e1 k = some r) : ExOk c G cx D Γ (.un op e) r.1 r.2 := by
  have hs : ∀ va s s' ρ ρ', Sim c G s s' → EnvOk G D s ρ ρ' → RelV c G s (vals cx ρ va (.un op e) s) (vals cx ρ' va (.un op e1) s') := by
    intro va s s' ρ ρ' h1 h2
    simp only [vals]
    refine (h.one va s s' ρ ρ' h1 h2).bind fun a a' t t' ht _ ha => ?_
    rw [ha, ht.heap]
    exact (perform_sim hap _ ht).bind fun b b' u u' hu _ hb => .ok _ _ _ _ hu (Le.refl u) (by rw [hb])
  cases k with
  | none => simp only [Fold.stepUn, Option.some.injEq] at hr; subst hr; exact .same hs
  | some v =>
    simp only [Fold.stepUn, Option.map_eq_some_iff] at hr
    obtain ⟨q, hq, rfl⟩ := hr
    cases q with
    | none => exact .same hs
    | some z =>
      have hg := h.good v rfl
      refine .set hl (un_good hg hq) hs ?_
      intro va s s' ρ ρ' h1 h2
      obtain ⟨y, hy⟩ := hg.1
      obtain ⟨u, h3, h4⟩ := un_ok op hy hq
      simp only [vals, h.known v rfl va s s' ρ ρ' h1 h2, R.bind, lit_repr hy, lit_repr h3, first, List.headD, hw.un op y u _ h4, perform]

theorem mapM_id {ks : List (Option LV)} {vs : List LV} (h : ks.mapM id = some vs) : ks = vs.map some := by
  induction ks generalizing vs with
  | nil => simp only [List.mapM_nil, Option.pure_def, Option.some.injEq] at h; subst h; rfl
  | cons k ks ih =>
    simp only [List.mapM_cons, id, Option.pure_def, Option.bind_eq_bind, Option.bind_eq_some_iff, Option.some.injEq] at h
    obtain ⟨v, rfl, us, hu, rfl⟩ := h
    rw [ih hu]; rfl

theorem stepBuiltin_ok (hl : cx.lang = c.lang) (hw : cx.w.Ok c.lang arith) (hap : ApOk c G cx.ap) {f : Builtin} {es es1 : List Ex}
    {ks : List (Option LV)} {r : Ex × Option LV}
    (h1 : ∀ va s s' ρ ρ', Sim c G s s' → EnvOk G D s ρ ρ' → RelV c G s (args cx ρ va es s) (args cx ρ' va es1 s'))
    (h2 : ∀ v, some v ∈ ks → v.Good c.lang)
    (h3 : ∀ vs : List LV, ks = vs.map some → ∀ va s s' ρ ρ', Sim c G s s' → EnvOk G D s ρ ρ' →
      args cx ρ va es s = .ok (vs.map (lit c.lang)) s)
    (hr : c.stepBuiltin f es1 ks = some r) : ExOk c G cx D Γ (.builtin f es) r.1 r.2 := by
  have hs : ∀ va s s' ρ ρ', Sim c G s s' → EnvOk G D s ρ ρ' →
      RelV c G s (vals cx ρ va (.builtin f es) s) (vals cx ρ' va (.builtin f es1) s') := by
    intro va s s' ρ ρ' g1 g2
    simp only [vals]
    refine (h1 va s s' ρ ρ' g1 g2).bind fun a a' t t' ht _ ha => ?_
    rw [ha, ht.heap]
    exact perform_sim hap _ ht
  unfold Fold.stepBuiltin at hr
  cases hk : ks.mapM id with
  | none => rw [hk] at hr; simp only [Option.some.injEq] at hr; subst hr; exact .same hs
  | some vs =>
    rw [hk] at hr
    have hks := mapM_id hk
    simp only [Option.map_eq_some_iff] at hr
    obtain ⟨q, hq, rfl⟩ := hr
    cases q with
    | none => exact .same hs
    | some z =>
      have hg : ∀ a ∈ vs, a.Good c.lang := fun a ha => h2 a (by rw [hks]; exact List.mem_map_of_mem ha)
      obtain ⟨g1, g2⟩ := call_good hg hq
      obtain ⟨xs, hxs⟩ := mapM_repr hg
      obtain ⟨x, hx⟩ := g1.1
      have hm : vs.map (lit c.lang) = xs.map V.base := by
        clear hk hks hq hg h3 h2 g2
        induction vs generalizing xs with
        | nil => simp only [List.mapM_nil, Option.pure_def, Option.some.injEq] at hxs; subst hxs; rfl
        | cons v vs ih =>
          simp only [List.mapM_cons, Option.pure_def, Option.bind_eq_bind, Option.bind_eq_some_iff, Option.some.injEq] at hxs
          obtain ⟨y, hy, ys, hys, rfl⟩ := hxs
          simp only [List.map_cons, lit_repr hy, ih ys hys]
      refine .set hl g1 hs ?_
      intro va s s' ρ ρ' e1 e2
      simp only [vals, h3 vs hks va s s' ρ ρ' e1 e2, R.bind, hm, hw.builtin f xs x _ (g2 arith xs x hxs hx), perform, lit_repr hx]

theorem stepBin_ok (hl : cx.lang = c.lang) (hw : cx.w.Ok c.lang arith) (hap : ApOk c G cx.ap) {op : BinOp} {l l1 r r1 : Ex}
    {kl kr : Option LV} {q : Ex × Option LV} (hL : ExOk c G cx D Γ l l1 kl) (hR : ExOk c G cx D Γ r r1 kr)
    (hq : c.stepBin op l1 kl r1 kr = some q) : ExOk c G cx D Γ (.bin op l r) q.1 q.2 := by
  have hs : ∀ va s s' ρ ρ', Sim c G s s' → EnvOk G D s ρ ρ' →
      RelV c G s (vals cx ρ va (.bin op l r) s) (vals cx ρ' va (.bin op l1 r1) s') := by
    intro va s s' ρ ρ' h1 h2
    simp only [vals]
    refine (hL.one va s s' ρ ρ' h1 h2).bind fun a a' t t' ht hle ha => ?_
    rw [ha]
    split
    · exact .ok _ _ _ _ ht (Le.refl t) rfl
    · refine (hR.one va t t' ρ ρ' ht (h2.mono hle fun _ h => h)).bind fun b b' u u' hu _ hb => ?_
      rw [hb]
      split
      · exact .ok _ _ _ _ hu (Le.refl u) rfl
      · rw [hu.heap]
        exact (perform_sim hap _ hu).bind fun d d' z z' hz _ hd => .ok _ _ _ _ hz (Le.refl z) (by rw [hd])
  -- the node is replaced by its right side
  have right : ∀ a, kl = some a → (op = .and ∧ a.truthy = true) ∨ (op = .or ∧ a.truthy = false) →
      ExOk c G cx D Γ (.bin op l r) r1 none := by
    intro a ha hop
    have hg := hL.good a ha
    obtain ⟨x, hx⟩ := hg.1
    have e : ∀ va s s' ρ ρ', Sim c G s s' → EnvOk G D s ρ ρ' →
        vals cx ρ va (.bin op l r) s = (vals cx ρ va r s).bind fun us s => .ok [first us] s := by
      intro va s s' ρ ρ' h1 h2
      simp only [vals, hL.known a ha va s s' ρ ρ' h1 h2, R.bind, lit_repr hx, first, List.headD, V.truthy, ← repr_truthy hx]
      rcases hop with ⟨rfl, h⟩ | ⟨rfl, h⟩ <;> simp [h]
    have hlog : op.logic = true := by rcases hop with ⟨rfl, _⟩ | ⟨rfl, _⟩ <;> rfl
    refine ⟨?_, ?_, fun _ h => by (cases h), fun _ h => by (cases h)⟩
    · intro va s s' ρ ρ' h1 h2
      rw [e va s s' ρ ρ' h1 h2, ← bind_self (vals cx ρ' va r1 s')]
      exact (hR.one va s s' ρ ρ' h1 h2).bind fun b b' u u' hu _ hb => .ok _ _ _ _ hu (Le.refl u) hb
    · intro hf va s s' ρ ρ' h1 h2
      simp only [Ex.Fine, Bool.true_and, hlog, forall_const] at hf
      rw [e va s s' ρ ρ' h1 h2, ← bind_self (vals cx ρ' va r1 s')]
      have := hR.all hf.2.1 va s s' ρ ρ' h1 h2
      revert this
      have hone := @single_of_not_multi H cx ρ va r s
      revert hone
      generalize vals cx ρ va r s = x
      generalize vals cx ρ' va r1 s' = x'
      intro hone this
      cases this with
      | out t t' h => exact .out t t' h
      | err t t' h hl => exact .err t t' h hl
      | ok b b' t t' h hl hb =>
        exact .ok _ _ _ _ h hl (by rw [← hb]; exact (hone hf.2.2 rfl).symm)
  -- the node is known to be its left side
  have left : ∀ a, kl = some a → (op = .and ∧ a.truthy = false) ∨ (op = .or ∧ a.truthy = true) →
      ExOk c G cx D Γ (.bin op l r) (c.set (.bin op l1 r1) a).1 (c.set (.bin op l1 r1) a).2 := by
    intro a ha hop
    have hg := hL.good a ha
    obtain ⟨x, hx⟩ := hg.1
    refine .set hl hg hs ?_
    intro va s s' ρ ρ' h1 h2
    simp only [vals, hL.known a ha va s s' ρ ρ' h1 h2, R.bind, lit_repr hx, first, List.headD, V.truthy, ← repr_truthy hx]
    rw [if_pos hop]
  cases kl with
  | none => simp only [Fold.stepBin, Option.some.injEq] at hq; subst hq; exact .same hs
  | some a =>
    cases kr with
    | none =>
      simp only [Fold.stepBin] at hq
      by_cases h1 : op = .and
      · rw [if_pos h1, Option.some.injEq] at hq; subst hq
        split
        · rename_i ht; exact right a rfl (Or.inl ⟨h1, ht⟩)
        · rename_i ht; exact left a rfl (Or.inl ⟨h1, by simpa using ht⟩)
      · rw [if_neg h1] at hq
        by_cases h2 : op = .or
        · rw [if_pos h2, Option.some.injEq] at hq; subst hq
          split
          · rename_i ht; exact left a rfl (Or.inr ⟨h2, ht⟩)
          · rename_i ht; exact right a rfl (Or.inr ⟨h2, by simpa using ht⟩)
        · rw [if_neg h2, Option.some.injEq] at hq; subst hq; exact .same hs
    | some b =>
      simp only [Fold.stepBin, Option.map_eq_some_iff] at hq
      obtain ⟨z, hz, rfl⟩ := hq
      cases z with
      | none => exact .same hs
      | some v =>
        have ga := hL.good a rfl
        have gb := hR.good b rfl
        obtain ⟨g1, g2⟩ := bin_good ga gb hz
        refine .set hl g1 hs ?_
        intro va s s' ρ ρ' h1 h2
        obtain ⟨xa, ha⟩ := ga.1
        obtain ⟨xb, hb⟩ := gb.1
        obtain ⟨x, hx⟩ := g1.1
        have hrt := g2 arith xa xb x ha hb hx
        simp only [vals, hL.known a rfl va s s' ρ ρ' h1 h2, hR.known b rfl va s s' ρ ρ' h1 h2, R.bind, lit_repr ha, lit_repr hb,
          lit_repr hx, first, List.headD, V.truthy]
        by_cases c1 : op = .and
        · subst c1
          simp only [rtBin, Option.some.injEq] at hrt
          subst hrt
          cases xa.truthy <;> simp
        · by_cases c2 : op = .or
          · subst c2
            simp only [rtBin, Option.some.injEq] at hrt
            subst hrt
            cases xa.truthy <;> simp
          · rw [if_neg (by simp [c1, c2]), if_neg (by simp [c1, c2]), hw.bin op xa xb x _ hrt]; rfl

/-- Sources, their folded forms and constants. -/
inductive SrcOk (c : Fold) (G : Nat → Option LV) (cx : Cx H) (D : List Nat) (Γ : Nat → Option LV) :
    List Ex → List Ex → List (Option LV) → Prop where
  | nil : SrcOk c G cx D Γ [] [] []
  | cons {e e' k es es' ks} : ExOk c G cx D Γ e e' k → SrcOk c G cx D Γ es es' ks → SrcOk c G cx D Γ (e :: es) (e' :: es') (k :: ks)

theorem SrcOk.good {es es' : List Ex} {ks : List (Option LV)} (h : SrcOk c G cx D Γ es es' ks) : ∀ v, some v ∈ ks → v.Good c.lang := by
  induction h with
  | nil => intro v h; cases h
  | cons h _ ih =>
    intro v hv
    rcases List.mem_cons.mp hv with h1 | h1
    · exact h.good v h1.symm
    · exact ih v h1

theorem args_sim {es es' : List Ex} {ks : List (Option LV)} (h : SrcOk c G cx D Γ es es' ks) (hf : FineEs c G D Γ es) :
    ∀ va s s' ρ ρ', Sim c G s s' → EnvOk G D s ρ ρ' → RelV c G s (args cx ρ va es s) (args cx ρ' va es' s') := by
  induction h with
  | nil => intro va s s' ρ ρ' h1 _; simp only [args]; exact .ok _ _ _ _ h1 (Le.refl s) rfl
  | cons he h ih =>
    intro va s s' ρ ρ' h1 h2
    cases h with
    | nil => simp only [args]; exact he.all (by simpa only [FineEs] using hf) va s s' ρ ρ' h1 h2
    | cons he2 h =>
      simp only [FineEs] at hf
      simp only [args]
      refine (he.one va s s' ρ ρ' h1 h2).bind fun a a' t t' ht hle ha => ?_
      exact (ih hf.2 va t t' ρ ρ' ht (h2.mono hle fun _ h => h)).bind fun b b' u u' hu _ hb =>
        .ok _ _ _ _ hu (Le.refl u) (by rw [ha, hb])

theorem args_known {es es' : List Ex} {ks : List (Option LV)} (h : SrcOk c G cx D Γ es es' ks) : ∀ vs : List LV, ks = vs.map some →
    ∀ va s s' ρ ρ', Sim c G s s' → EnvOk G D s ρ ρ' → args cx ρ va es s = .ok (vs.map (lit c.lang)) s := by
  induction h with
  | nil =>
    intro vs hk va s s' ρ ρ' _ _
    cases vs with
    | nil => simp only [args, List.map_nil]
    | cons v vs => cases hk
  | @cons e e' k es es' ks he h ih =>
    intro vs hk va s s' ρ ρ' h1 h2
    cases vs with
    | nil => cases hk
    | cons v vs =>
      simp only [List.map_cons, List.cons.injEq] at hk
      have hv := he.known v hk.1 va s s' ρ ρ' h1 h2
      have ih2 := ih vs hk.2 va s s' ρ ρ' h1 h2
      cases h with
      | nil =>
        have : vs = [] := List.map_eq_nil_iff.mp hk.2.symm
        subst this
        simp only [args, hv, List.map_cons, List.map_nil]
      | cons he2 h => simp only [args, hv, R.bind, ih2, List.map_cons, first, List.headD]

theorem addClo {s s' : State H} (h : Sim c G s s') {f f' : Clo} (hf : CloOk c G s f f') :
    Sim c G { s with clos := s.clos ++ [f] } { s' with clos := s'.clos ++ [f'] } where
  heap := h.heap
  cells := h.cells
  consts := h.consts
  length := by simp [h.length]
  clos := fun i g hg => by
    rw [List.getElem?_append] at hg
    rw [List.getElem?_append, h.length]
    split at hg
    · rename_i hi
      rw [if_pos hi]
      obtain ⟨f', k1, k2⟩ := h.clos i g hg
      exact ⟨f', k1, k2.mono fun _ => Nat.le_refl _⟩
    · rename_i hi
      rw [if_neg hi]
      have : i - s.clos.length = 0 := by
        by_cases h0 : i - s.clos.length = 0
        · exact h0
        · obtain ⟨n, hn⟩ := Nat.exists_eq_succ_of_ne_zero h0
          rw [hn] at hg; cases hg
      rw [this] at hg ⊢
      cases hg
      exact ⟨f', rfl, hf.mono fun _ => Nat.le_refl _⟩

theorem ctx_forget {ps : List Nat} (h : CtxOk c G D Γ) (hp : ∀ x ∈ ps, G x = none) : CtxOk c G (ps ++ D) (forget Γ ps) := by
  intro x hx
  unfold forget
  split
  · rename_i hm; exact ⟨(hp x hm).symm, fun v h => by cases h⟩
  · rename_i hm
    rcases List.mem_append.mp hx with h1 | h1
    · exact absurd h1 hm
    · exact h x h1

mutual
theorem ex_sim (hl : cx.lang = c.lang) (hw : cx.w.Ok c.lang arith) (hap : ApOk c G cx.ap) (hΓ : CtxOk c G D Γ) :
    ∀ (e : Ex) {p : Ex × Option LV}, e.Fine c G false D Γ → c.ex Γ e = some p → ExOk c G cx D Γ e p.1 p.2
  | .const v, p, hf, h => by
    simp only [Fold.ex, Option.some.injEq] at h; subst h
    exact .const hl hf fun va s s' ρ ρ' _ _ => by simp only [vals, hl]
  | .var x, p, hf, h => by
    simp only [Fold.ex, Option.some.injEq] at h; subst h
    obtain ⟨g1, g2⟩ := hΓ x hf
    split
    · rename_i v hv
      refine .const hl (g2 v hv) ?_
      intro va s s' ρ ρ' h1 h2
      obtain ⟨_, n, hn, hlt⟩ := h2 x hf
      have hu := h1.consts x v (by rw [← g1, hv]) ((s.cells x)[n]) (List.getElem_mem hlt)
      simp only [vals, read, hn, Option.bind_some, List.getElem?_eq_getElem hlt, hu]
    · rename_i hv
      refine .same ?_
      intro va s s' ρ ρ' h1 h2
      obtain ⟨h3, n, hn, hlt⟩ := h2 x hf
      have hG : G x = none := by rw [← g1, hv]
      simp only [vals, read, h3 hG, hn, Option.bind_some, h1.cells x hG, List.getElem?_eq_getElem hlt]
      exact .ok _ _ _ _ h1 (Le.refl s) rfl
  | .dots, p, _, h => by
    simp only [Fold.ex, Option.some.injEq] at h; subst h
    exact .same fun va s s' ρ ρ' h1 _ => by simp only [vals]; exact .ok _ _ _ _ h1 (Le.refl s) rfl
  | .group e, p, hf, h => by
    simp only [Fold.ex, Option.map_eq_some_iff] at h
    obtain ⟨q, hq, rfl⟩ := h
    have ih := ex_sim hl hw hap hΓ e hf hq
    have hs : ∀ va s s' ρ ρ', Sim c G s s' → EnvOk G D s ρ ρ' → RelV c G s (vals cx ρ va (.group e) s) (vals cx ρ' va (.group q.1) s') := by
      intro va s s' ρ ρ' h1 h2
      simp only [vals]
      exact (ih.one va s s' ρ ρ' h1 h2).bind fun b b' u u' hu _ hb => .ok _ _ _ _ hu (Le.refl u) (by rw [hb])
    refine ⟨fun va s s' ρ ρ' h1 h2 => (hs va s s' ρ ρ' h1 h2).one, fun _ => hs, ih.good, ?_⟩
    intro v hv va s s' ρ ρ' h1 h2
    simp only [vals, ih.known v hv va s s' ρ ρ' h1 h2, R.bind, first, List.headD]
  | .un o e, p, hf, h => by
    simp only [Fold.ex, Option.bind_eq_some_iff] at h
    obtain ⟨q, hq, hr⟩ := h
    exact stepUn_ok hl hw hap (ex_sim hl hw hap hΓ e hf hq) hr
  | .bin o l r, p, hf, h => by
    simp only [Fold.ex, Option.bind_eq_some_iff] at h
    obtain ⟨q, hq, t, ht, hr⟩ := h
    simp only [Ex.Fine, Bool.false_and] at hf
    exact stepBin_ok hl hw hap (ex_sim hl hw hap hΓ l hf.1 hq) (ex_sim hl hw hap hΓ r hf.2.1 ht) hr
  | .builtin f es, p, hf, h => by
    simp only [Fold.ex, Option.bind_eq_some_iff] at h
    obtain ⟨q, hq, hr⟩ := h
    have ih := exs_sim hl hw hap hΓ es hf hq
    exact stepBuiltin_ok hl hw hap (args_sim ih hf) ih.good (args_known ih) hr
  | .call f es, p, hf, h => by
    simp only [Fold.ex, Option.bind_eq_some_iff, Option.map_eq_some_iff] at h
    obtain ⟨q, hq, t, ht, rfl⟩ := h
    have i1 := ex_sim hl hw hap hΓ f hf.1 hq
    have i2 := exs_sim hl hw hap hΓ es hf.2 ht
    refine .same fun va s s' ρ ρ' h1 h2 => ?_
    simp only [vals]
    refine (i1.one va s s' ρ ρ' h1 h2).bind fun a a' t t' ht hle ha => ?_
    refine (args_sim i2 hf.2 va t t' ρ ρ' ht (h2.mono hle fun _ h => h)).bind fun b b' u u' hu _ hb => ?_
    rw [ha, hb]
    exact hap _ _ _ _ hu
  | .index e k, p, hf, h => by
    simp only [Fold.ex, Option.bind_eq_some_iff, Option.map_eq_some_iff] at h
    obtain ⟨q, hq, t, ht, rfl⟩ := h
    have i1 := ex_sim hl hw hap hΓ e hf.1 hq
    have i2 := ex_sim hl hw hap hΓ k hf.2 ht
    refine .same fun va s s' ρ ρ' h1 h2 => ?_
    simp only [vals]
    refine (i1.one va s s' ρ ρ' h1 h2).bind fun a a' t t' ht hle ha => ?_
    refine (i2.one va t t' ρ ρ' ht (h2.mono hle fun _ h => h)).bind fun b b' u u' hu _ hb => ?_
    rw [ha, hb, hu.heap]
    exact (perform_sim hap _ hu).bind fun d d' z z' hz _ hd => .ok _ _ _ _ hz (Le.refl z) (by rw [hd])
  | .op k m es, p, hf, h => by
    simp only [Fold.ex, Option.map_eq_some_iff] at h
    obtain ⟨q, hq, rfl⟩ := h
    have ih := exs_sim hl hw hap hΓ es hf hq
    refine .same fun va s s' ρ ρ' h1 h2 => ?_
    simp only [vals]
    refine (args_sim ih hf va s s' ρ ρ' h1 h2).bind fun a a' t t' ht _ ha => ?_
    rw [ha, ht.heap]
    exact (perform_sim hap _ ht).bind fun d d' z z' hz _ hd => .ok _ _ _ _ hz (Le.refl z) (by rw [hd])
  | .func ps d b, p, hf, h => by
    simp only [Fold.ex, Option.map_eq_some_iff] at h
    obtain ⟨q, hq, rfl⟩ := h
    refine .same fun va s s' ρ ρ' h1 h2 => ?_
    simp only [vals, h1.length]
    exact .ok _ _ _ _ (addClo h1 ⟨rfl, rfl, D, forget Γ ps, q.1, hf.1, h2, ctx_forget hΓ hf.1, hf.2, hq⟩) (fun _ => Nat.le_refl _) rfl
theorem exs_sim (hl : cx.lang = c.lang) (hw : cx.w.Ok c.lang arith) (hap : ApOk c G cx.ap) (hΓ : CtxOk c G D Γ) :
    ∀ (es : List Ex) {p : List Ex × List (Option LV)}, FineEs c G D Γ es → c.exs Γ es = some p → SrcOk c G cx D Γ es p.1 p.2
  | [], p, _, h => by simp only [Fold.exs, Option.some.injEq] at h; subst h; exact .nil
  | [e], p, hf, h => by
    simp only [Fold.exs, Option.bind_eq_some_iff, Option.map_eq_some_iff] at h
    obtain ⟨q, hq, t, ht, rfl⟩ := h
    simp only [Option.some.injEq] at ht; subst ht
    exact .cons (ex_sim hl hw hap hΓ e (Ex.fine_mono (by simpa only [FineEs] using hf)) hq) .nil
  | e :: e' :: es, p, hf, h => by
    simp only [FineEs] at hf
    rw [Fold.exs] at h
    simp only [Option.bind_eq_some_iff, Option.map_eq_some_iff] at h
    obtain ⟨q, hq, t, ht, rfl⟩ := h
    exact .cons (ex_sim hl hw hap hΓ e hf.1 hq) (exs_sim hl hw hap hΓ (e' :: es) hf.2 ht)
end

end

end Verif.Core
