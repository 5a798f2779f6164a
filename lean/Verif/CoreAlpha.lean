import Verif.Spec.LuaCore
/-
Helpers for C80: which numbers the variables of a program have does not matter.
-/
namespace Verif.Core

mutual
/-- The expression with other numbers for its variables. -/
def Ex.ren (f : Nat → Nat) : Ex → Ex
  | .const v => .const v
  | .var x => .var (f x)
  | .dots => .dots
  | .group e => .group (e.ren f)
  | .un o e => .un o (e.ren f)
  | .bin o l r => .bin o (l.ren f) (r.ren f)
  | .builtin g es => .builtin g (renEs f es)
  | .call g es => .call (g.ren f) (renEs f es)
  | .index e k => .index (e.ren f) (k.ren f)
  | .op k m es => .op k m (renEs f es)
  | .func ps d b => .func (ps.map f) d (renBl f b)
def renEs (f : Nat → Nat) : List Ex → List Ex
  | [] => []
  | e :: es => e.ren f :: renEs f es
def St.ren (f : Nat → Nat) : St → St
  | .locals xs es => .locals (xs.map f) (renEs f es)
  | .localFn x ps d b => .localFn (f x) (ps.map f) d (renBl f b)
  | .assign ts es => .assign (renTs f ts) (renEs f es)
  | .eval e => .eval (e.ren f)
  | .ret es => .ret (renEs f es)
  | .brk => .brk
  | .doB b => .doB (renBl f b)
  | .whileS e b => .whileS (e.ren f) (renBl f b)
  | .repeatS b e => .repeatS (renBl f b) (e.ren f)
  | .forNum x es b => .forNum (f x) (renEs f es) (renBl f b)
  | .forIn xs es b => .forIn (xs.map f) (renEs f es) (renBl f b)
  | .ifS e t g => .ifS (e.ren f) (renBl f t) (g.ren f)
def renBl (f : Nat → Nat) : List St → List St
  | [] => []
  | s :: b => s.ren f :: renBl f b
def El.ren (f : Nat → Nat) : El → El
  | .none => .none
  | .else_ b => .else_ (renBl f b)
  | .elseif e t g => .elseif (e.ren f) (renBl f t) (g.ren f)
def Tg.ren (f : Nat → Nat) : Tg → Tg
  | .loc x => .loc (f x)
  | .put k es => .put k (renEs f es)
def renTs (f : Nat → Nat) : List Tg → List Tg
  | [] => []
  | t :: ts => t.ren f :: renTs f ts
end

namespace Alpha

variable {H : Type} {f : Nat → Nat}

def ER (f : Nat → Nat) (ρ ρ' : Env) : Prop := ∀ x, ρ' (f x) = ρ x

structure CR (f : Nat → Nat) (c c' : Clo) : Prop where
  ps : c'.ps = c.ps.map f
  dots : c'.dots = c.dots
  body : c'.body = renBl f c.body
  env : ER f c.env c'.env

structure SR (f : Nat → Nat) (s s' : State H) : Prop where
  cells : ∀ x, s'.cells (f x) = s.cells x
  len : s'.clos.length = s.clos.length
  clos : ∀ (i : Nat) (c : Clo), s.clos[i]? = some c → ∃ c', s'.clos[i]? = some c' ∧ CR f c c'
  heap : s'.heap = s.heap

inductive RR (f : Nat → Nat) {α β : Type} (Q : α → β → Prop) : R H α → R H β → Prop
  | out {s s'} : SR f s s' → RR f Q (.out s) (.out s')
  | err {s s'} : SR f s s' → RR f Q (.err s) (.err s')
  | ok {a b s s'} : Q a b → SR f s s' → RR f Q (.ok a s) (.ok b s')

theorem RR.bind {α β α' β' : Type} {Q : α → β → Prop} {Q' : α' → β' → Prop} {r : R H α} {r' : R H β} {k : α → State H → R H α'}
    {k' : β → State H → R H β'} (h : RR f Q r r') (hk : ∀ a b s s', Q a b → SR f s s' → RR f Q' (k a s) (k' b s')) :
    RR f Q' (r.bind k) (r'.bind k') := by
  cases h with
  | out h => exact .out h
  | err h => exact .err h
  | ok h1 h2 => exact hk _ _ _ _ h1 h2

theorem SR.setHeap {s s' : State H} (h : SR f s s') (x : H) : SR f { s with heap := x } { s' with heap := x } := ⟨h.cells, h.len, h.clos, rfl⟩

def AP (f : Nat → Nat) (ap ap' : Apply H) : Prop := ∀ v vs s s', SR f s s' → RR f Eq (ap v vs s) (ap' v vs s')

theorem perform_rr {ap ap' : Apply H} (ha : AP f ap ap') : ∀ (a : Act H) {s s' : State H}, SR f s s' → RR f Eq (perform ap a s) (perform ap' a s')
  | .fail h, _, _, hs => .err (hs.setHeap h)
  | .ret vs h, _, _, hs => .ok rfl (hs.setHeap h)
  | .call g args h k, s, s', hs => by
    have h1 := ha g args _ _ (hs.setHeap h)
    rw [perform, perform]
    cases e1 : ap g args { s with heap := h } <;> cases e2 : ap' g args { s' with heap := h } <;> rw [e1, e2] at h1 <;> cases h1
    · exact .out ‹_›
    · rename_i h; simp only; rw [h.heap]; exact perform_rr ha _ h
    · rename_i e h; simp only; rw [h.heap, e]; exact perform_rr ha _ h

structure CxR (f : Nat → Nat) (c c' : Cx H) : Prop where
  w : c'.w = c.w
  lang : c'.lang = c.lang
  steps : c'.steps = c.steps
  ap : AP f c.ap c'.ap

theorem read_rr {ρ ρ' : Env} {s s' : State H} (he : ER f ρ ρ') (hs : SR f s s') (x : Nat) : read ρ' (f x) s' = read ρ x s := by
  simp only [read, he x, hs.cells]

theorem addClo {s s' : State H} (h : SR f s s') {c c' : Clo} (hc : CR f c c') :
    SR f { s with clos := s.clos ++ [c] } { s' with clos := s'.clos ++ [c'] } := by
  refine ⟨h.cells, by simp [h.len], fun i d hd => ?_, h.heap⟩
  by_cases hi : i < s.clos.length
  · simp only [List.getElem?_append_left hi] at hd
    obtain ⟨d', h1, h2⟩ := h.clos i d hd
    exact ⟨d', by simp only; rw [List.getElem?_append_left (by rw [h.len]; exact hi), h1], h2⟩
  · have hi' : s.clos.length ≤ i := by omega
    simp only [List.getElem?_append_right hi'] at hd
    have : i - s.clos.length = 0 := by
      cases e : i - s.clos.length with
      | zero => rfl
      | succ k => rw [e] at hd; simp at hd
    rw [this] at hd
    simp only [List.getElem?_cons_zero, Option.some.injEq] at hd
    subst hd
    refine ⟨c', ?_, hc⟩
    simp only
    rw [List.getElem?_append_right (by rw [h.len]; exact hi'), h.len, this]
    rfl

section
variable {c c' : Cx H} (hc : CxR f c c')

mutual
theorem vals_rr (hc : CxR f c c') {va : List V} : ∀ (e : Ex) {ρ ρ' : Env} {s s' : State H}, ER f ρ ρ' → SR f s s' → RR f Eq (vals c ρ va e s) (vals c' ρ' va (e.ren f) s')
  | .const v, _, _, _, _, _, hs => by simp only [vals, Ex.ren, hc.lang]; exact .ok rfl hs
  | .var x, _, _, _, _, he, hs => by
    simp only [vals, Ex.ren, read_rr he hs]
    split
    · exact .ok rfl hs
    · exact .err hs
  | .dots, _, _, _, _, _, hs => .ok rfl hs
  | .group e, _, _, _, _, he, hs => by
    simp only [vals, Ex.ren]
    exact (vals_rr hc e he hs).bind fun a b s s' hab hs => by subst hab; exact .ok rfl hs
  | .un o e, _, _, _, _, he, hs => by
    simp only [vals, Ex.ren, hc.w]
    refine (vals_rr hc e he hs).bind fun a b s s' hab hs => ?_
    subst hab
    rw [hs.heap]
    exact (perform_rr hc.ap _ hs).bind fun a b s s' hab hs => by subst hab; exact .ok rfl hs
  | .bin o l r, _, _, _, _, he, hs => by
    simp only [vals, Ex.ren, hc.w]
    refine (vals_rr hc l he hs).bind fun a b s s' hab hs => ?_
    subst hab
    split
    · exact .ok rfl hs
    · refine (vals_rr hc r he hs).bind fun a b s s' hab hs => ?_
      subst hab
      split
      · exact .ok rfl hs
      · rw [hs.heap]
        exact (perform_rr hc.ap _ hs).bind fun a b s s' hab hs => by subst hab; exact .ok rfl hs
  | .builtin g es, _, _, _, _, he, hs => by
    simp only [vals, Ex.ren, hc.w]
    refine (args_rr hc es he hs).bind fun a b s s' hab hs => ?_
    subst hab
    rw [hs.heap]
    exact perform_rr hc.ap _ hs
  | .call g es, _, _, _, _, he, hs => by
    simp only [vals, Ex.ren]
    refine (vals_rr hc g he hs).bind fun a b s s' hab hs => ?_
    subst hab
    refine (args_rr hc es he hs).bind fun a b s s' hab hs => ?_
    subst hab
    exact hc.ap _ _ _ _ hs
  | .index e k, _, _, _, _, he, hs => by
    simp only [vals, Ex.ren, hc.w]
    refine (vals_rr hc e he hs).bind fun a b s s' hab hs => ?_
    subst hab
    refine (vals_rr hc k he hs).bind fun a b s s' hab hs => ?_
    subst hab
    rw [hs.heap]
    exact (perform_rr hc.ap _ hs).bind fun a b s s' hab hs => by subst hab; exact .ok rfl hs
  | .op k m es, _, _, _, _, he, hs => by
    simp only [vals, Ex.ren, hc.w]
    refine (args_rr hc es he hs).bind fun a b s s' hab hs => ?_
    subst hab
    rw [hs.heap]
    exact (perform_rr hc.ap _ hs).bind fun a b s s' hab hs => by subst hab; exact .ok rfl hs
  | .func ps d b, _, _, _, _, he, hs => by
    simp only [vals, Ex.ren, hs.len]
    exact .ok rfl (addClo hs ⟨rfl, rfl, rfl, he⟩)
theorem args_rr (hc : CxR f c c') {va : List V} : ∀ (es : List Ex) {ρ ρ' : Env} {s s' : State H}, ER f ρ ρ' → SR f s s' → RR f Eq (args c ρ va es s) (args c' ρ' va (renEs f es) s')
  | [], _, _, _, _, _, hs => .ok rfl hs
  | [e], _, _, _, _, he, hs => by simp only [args, renEs]; exact vals_rr hc e he hs
  | e :: e' :: es, _, _, _, _, he, hs => by
    simp only [args, renEs]
    refine (vals_rr hc e he hs).bind fun a b s s' hab hs => ?_
    subst hab
    have := args_rr hc (va := va) (e' :: es) he hs
    simp only [renEs] at this
    exact this.bind fun a b s s' hab hs => by subst hab; exact .ok rfl hs
end
end

theorem upd_er (hf : ∀ x y, f x = f y → x = y) {α : Type} {g g' : Nat → α} (h : ∀ x, g' (f x) = g x) (x : Nat) (a : α) (y : Nat) : upd g' (f x) a (f y) = upd g x a y := by
  unfold upd
  by_cases e : y = x
  · rw [if_pos e, if_pos (congrArg f e)]
  · rw [if_neg e, if_neg (fun k => e (hf _ _ k)), h]

theorem alloc_rr (hf : ∀ x y, f x = f y → x = y) : ∀ (xs : List Nat) (vs : List V) {ρ ρ' : Env} {s s' : State H}, ER f ρ ρ' → SR f s s' →
    ER f (alloc xs vs ρ s).1 (alloc (xs.map f) vs ρ' s').1 ∧ SR f (alloc xs vs ρ s).2 (alloc (xs.map f) vs ρ' s').2
  | [], _, _, _, _, _, he, hs => ⟨he, hs⟩
  | x :: xs, vs, ρ, ρ', s, s', he, hs => by
    simp only [alloc, List.map_cons, hs.cells]
    exact alloc_rr hf xs vs.tail (upd_er hf he x _) ⟨upd_er hf hs.cells x _, hs.len, hs.clos, hs.heap⟩

inductive PlR (f : Nat → Nat) : List Place → List Place → Prop
  | nil : PlR f [] []
  | loc {x ps ps'} : PlR f ps ps' → PlR f (.loc x :: ps) (.loc (f x) :: ps')
  | put {k vs ps ps'} : PlR f ps ps' → PlR f (.put k vs :: ps) (.put k vs :: ps')

theorem places_rr {c c' : Cx H} (hc : CxR f c c') {va : List V} : ∀ (ts : List Tg) {ρ ρ' : Env} {s s' : State H}, ER f ρ ρ' → SR f s s' →
    RR f (PlR f) (places c ρ va ts s) (places c' ρ' va (renTs f ts) s')
  | [], _, _, _, _, _, hs => .ok .nil hs
  | .loc x :: ts, _, _, _, _, he, hs => by
    simp only [places, renTs, Tg.ren]
    exact (places_rr hc ts he hs).bind fun a b s s' hab hs => .ok (.loc hab) hs
  | .put k es :: ts, _, _, _, _, he, hs => by
    simp only [places, renTs, Tg.ren]
    refine (args_rr hc es he hs).bind fun a b s s' hab hs => ?_
    subst hab
    exact (places_rr hc ts he hs).bind fun a b s s' hab hs => .ok (.put hab) hs

theorem store_rr (hf : ∀ x y, f x = f y → x = y) {c c' : Cx H} (hc : CxR f c c') {ρ ρ' : Env} (he : ER f ρ ρ') {ps ps' : List Place} (h : PlR f ps ps') :
    ∀ (vs : List V) {s s' : State H}, SR f s s' → RR f Eq (store c ρ ps vs s) (store c' ρ' ps' vs s') := by
  induction h with
  | nil => exact fun vs s s' hs => .ok rfl hs
  | @loc x ps ps' h ih =>
    intro vs s s' hs
    simp only [store, he x]
    split
    · refine ih _ ⟨?_, hs.len, hs.clos, hs.heap⟩
      rw [hs.cells]
      exact upd_er hf hs.cells x _
    · exact .err hs
  | @put k us ps ps' h ih =>
    intro vs s s' hs
    simp only [store, hc.w, hs.heap]
    exact (perform_rr hc.ap _ hs).bind fun a b s s' _ hs => ih _ hs

theorem loop_rr {α : Type} {st st' : α → State H → R H (α ⊕ Ctl)} (h : ∀ a s s', SR f s s' → RR f Eq (st a s) (st' a s')) :
    ∀ (n : Nat) (a : α) {s s' : State H}, SR f s s' → RR f Eq (loop st n a s) (loop st' n a s')
  | 0, _, _, _, hs => .out hs
  | n + 1, a, s, s', hs => by
    simp only [loop]
    refine (h a s s' hs).bind fun r r' s s' hr hs => ?_
    subst hr
    cases r with
    | inl a => exact loop_rr h n a hs
    | inr k => exact .ok rfl hs

def EC (f : Nat → Nat) (p q : Env × Ctl) : Prop := ER f p.1 q.1 ∧ p.2 = q.2

section
variable {c c' : Cx H}

mutual
theorem exec_rr (hf : ∀ x y, f x = f y → x = y) (hc : CxR f c c') {va : List V} : ∀ (st : St) {ρ ρ' : Env} {s s' : State H}, ER f ρ ρ' → SR f s s' →
    RR f (EC f) (exec c va st ρ s) (exec c' va (st.ren f) ρ' s')
  | .locals xs es, _, _, _, _, he, hs => by
    simp only [exec, St.ren]
    refine (args_rr hc es he hs).bind fun a b s s' hab hs => ?_
    subst hab
    have := alloc_rr hf xs a he hs
    exact .ok ⟨this.1, rfl⟩ this.2
  | .localFn x ps d b, _, _, _, _, he, hs => by
    simp only [exec, St.ren, hs.len]
    rename_i ρ ρ' s s'
    have := alloc_rr hf [x] [.clo s.clos.length] he hs
    refine .ok ⟨this.1, rfl⟩ ?_
    have h := addClo hs (c := ⟨ps, d, b, _⟩) (c' := ⟨ps.map f, d, renBl f b, _⟩) ⟨rfl, rfl, rfl, this.1⟩
    exact ⟨this.2.cells, h.len, h.clos, this.2.heap⟩
  | .assign ts es, _, _, _, _, he, hs => by
    simp only [exec, St.ren]
    refine (places_rr hc ts he hs).bind fun ps ps' s s' hp hs => ?_
    refine (args_rr hc es he hs).bind fun a b s s' hab hs => ?_
    subst hab
    exact (store_rr hf hc he hp _ hs).bind fun _ _ s s' _ hs => .ok ⟨he, rfl⟩ hs
  | .eval e, _, _, _, _, he, hs => by
    simp only [exec, St.ren]
    exact (vals_rr hc e he hs).bind fun _ _ s s' _ hs => .ok ⟨he, rfl⟩ hs
  | .ret es, _, _, _, _, he, hs => by
    simp only [exec, St.ren]
    exact (args_rr hc es he hs).bind fun a b s s' hab hs => by subst hab; exact .ok ⟨he, rfl⟩ hs
  | .brk, _, _, _, _, he, hs => .ok ⟨he, rfl⟩ hs
  | .doB b, _, _, _, _, he, hs => by
    simp only [exec, St.ren]
    exact (run_rr hf hc b he hs).bind fun p q s s' h hs => .ok ⟨he, h.2⟩ hs
  | .whileS e b, _, _, _, _, he, hs => by
    simp only [exec, St.ren, hc.steps]
    refine (loop_rr (fun _ s s' hs => ?_) _ _ hs).bind fun k k' s s' h hs => .ok ⟨he, h⟩ hs
    refine (vals_rr hc e he hs).bind fun a b s s' hab hs => ?_
    subst hab
    split
    · exact (run_rr hf hc b he hs).bind fun p q s s' h hs => by rw [h.2]; exact .ok rfl hs
    · exact .ok rfl hs
  | .repeatS b e, _, _, _, _, he, hs => by
    simp only [exec, St.ren, hc.steps]
    refine (loop_rr (fun _ s s' hs => ?_) _ _ hs).bind fun k k' s s' h hs => .ok ⟨he, h⟩ hs
    refine (run_rr hf hc b he hs).bind fun p q s s' h hs => ?_
    obtain ⟨ρ1, k⟩ := p
    obtain ⟨ρ2, k'⟩ := q
    obtain ⟨h1, h2⟩ := h
    simp only at h1 h2
    subst h2
    cases k with
    | next => exact (vals_rr hc e h1 hs).bind fun a b s s' hab hs => by subst hab; exact .ok rfl hs
    | brk => exact .ok rfl hs
    | ret vs => exact .ok rfl hs
  | .forNum x es b, _, _, _, _, he, hs => by
    simp only [exec, St.ren, hc.steps, hc.w]
    refine (args_rr hc es he hs).bind fun vs vs' s s' hab hs => ?_
    subst hab
    refine (loop_rr (fun i s s' hs => ?_) _ _ hs).bind fun k k' s s' h hs => .ok ⟨he, h⟩ hs
    split
    · exact .err hs
    · exact .ok rfl hs
    · rename_i v _
      have := alloc_rr hf [x] [v] he hs
      exact (run_rr hf hc b this.1 this.2).bind fun p q s s' h hs => by rw [h.2]; exact .ok rfl hs
  | .forIn xs es b, _, _, _, _, he, hs => by
    simp only [exec, St.ren, hc.steps]
    refine (args_rr hc es he hs).bind fun vs vs' s s' hab hs => ?_
    subst hab
    refine (loop_rr (fun i s s' hs => ?_) _ _ hs).bind fun k k' s s' h hs => .ok ⟨he, h⟩ hs
    refine (hc.ap _ _ _ _ hs).bind fun us us' s s' hab hs => ?_
    subst hab
    split
    · exact .ok rfl hs
    · have := alloc_rr hf xs us he hs
      exact (run_rr hf hc b this.1 this.2).bind fun p q s s' h hs => by rw [h.2]; exact .ok rfl hs
  | .ifS e t g, _, _, _, _, he, hs => by
    simp only [exec, St.ren]
    refine (vals_rr hc e he hs).bind fun a b s s' hab hs => ?_
    subst hab
    split
    · exact (run_rr hf hc t he hs).bind fun p q s s' h hs => .ok ⟨he, h.2⟩ hs
    · exact (otherwise_rr hf hc g he hs).bind fun k k' s s' h hs => .ok ⟨he, h⟩ hs
theorem run_rr (hf : ∀ x y, f x = f y → x = y) (hc : CxR f c c') {va : List V} : ∀ (b : List St) {ρ ρ' : Env} {s s' : State H}, ER f ρ ρ' → SR f s s' →
    RR f (EC f) (run c va b ρ s) (run c' va (renBl f b) ρ' s')
  | [], _, _, _, _, he, hs => .ok ⟨he, rfl⟩ hs
  | st :: b, _, _, _, _, he, hs => by
    simp only [run, renBl]
    refine (exec_rr hf hc st he hs).bind fun p q s s' h hs => ?_
    obtain ⟨ρ1, k⟩ := p
    obtain ⟨ρ2, k'⟩ := q
    obtain ⟨h1, h2⟩ := h
    simp only at h1 h2
    subst h2
    cases k with
    | next => exact run_rr hf hc b h1 hs
    | brk => exact .ok ⟨h1, rfl⟩ hs
    | ret vs => exact .ok ⟨h1, rfl⟩ hs
theorem otherwise_rr (hf : ∀ x y, f x = f y → x = y) (hc : CxR f c c') {va : List V} : ∀ (g : El) {ρ ρ' : Env} {s s' : State H}, ER f ρ ρ' → SR f s s' →
    RR f Eq (otherwise c va g ρ s) (otherwise c' va (g.ren f) ρ' s')
  | .none, _, _, _, _, _, hs => .ok rfl hs
  | .else_ b, _, _, _, _, he, hs => by
    simp only [otherwise, El.ren]
    exact (run_rr hf hc b he hs).bind fun p q s s' h hs => .ok h.2 hs
  | .elseif e t g, _, _, _, _, he, hs => by
    simp only [otherwise, El.ren]
    refine (vals_rr hc e he hs).bind fun a b s s' hab hs => ?_
    subst hab
    split
    · exact (run_rr hf hc t he hs).bind fun p q s s' h hs => .ok h.2 hs
    · exact otherwise_rr hf hc g he hs
end
end

theorem apply_rr (hf : ∀ x y, f x = f y → x = y) (w : World H) (lang : Lang) : ∀ n, AP f (apply w lang n) (apply w lang n)
  | 0, _, _, _, _, hs => .out hs
  | n + 1, .clo i, vs, s, s', hs => by
    simp only [apply]
    cases hi : s.clos[i]? with
    | none =>
      have : s'.clos[i]? = none := by
        rw [List.getElem?_eq_none_iff] at hi ⊢
        rw [hs.len]; exact hi
      rw [this]
      exact .err hs
    | some g =>
      obtain ⟨g', h1, h2⟩ := hs.clos i g hi
      rw [h1]
      have := alloc_rr hf g.ps vs h2.env hs
      simp only [h2.ps, h2.dots, h2.body, List.length_map]
      exact (run_rr hf ⟨rfl, rfl, rfl, apply_rr hf w lang n⟩ g.body this.1 this.2).bind fun p q s s' h hs => by rw [h.2]; exact .ok rfl hs
  | n + 1, .base v, vs, s, s', hs => by simp only [apply, hs.heap]; exact perform_rr (apply_rr hf w lang n) _ hs
  | n + 1, .obj v, vs, s, s', hs => by simp only [apply, hs.heap]; exact perform_rr (apply_rr hf w lang n) _ hs

/-- The numbers of variables do not matter, as long as different ones stay different. -/
theorem play_ren (hf : ∀ x y, f x = f y → x = y) (w : World H) (lang : Lang) (n : Nat) (va : List V) (drive : List V → H → Act H) (b : List St) (h : H) :
    (play w lang n va drive (renBl f b) h).seen = (play w lang n va drive b h).seen := by
  have h0 : SR f (⟨fun _ => [], [], h⟩ : State H) ⟨fun _ => [], [], h⟩ := ⟨fun _ => rfl, rfl, fun i c hi => by simp at hi, rfl⟩
  have hr : RR f Eq (play w lang n va drive b h) (play w lang n va drive (renBl f b) h) := by
    unfold play
    refine (run_rr hf (c := ⟨w, lang, n, apply w lang n⟩) ⟨rfl, rfl, rfl, apply_rr hf w lang n⟩ b (ρ := fun _ => none) (ρ' := fun _ => none) (fun _ => rfl) h0).bind fun p q s s' h hs => ?_
    rw [h.2, hs.heap]
    exact perform_rr (apply_rr hf w lang n) _ hs
  generalize play w lang n va drive b h = r1 at hr ⊢
  generalize play w lang n va drive (renBl f b) h = r2 at hr ⊢
  cases hr with
  | out h => simp only [R.seen, h.heap]
  | err h => simp only [R.seen, h.heap]
  | ok e h => simp only [R.seen, h.heap, e]

end Alpha
end Verif.Core
