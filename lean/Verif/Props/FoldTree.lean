import Verif.FoldTreeLemmas
/-!
C24: folding constants in expressions and `if` statements.

A world `w` with `w.Ok lang arith` is any behaviour of calls, tables, loops and non-constant operators that agrees with the runtime on
constants.  `ConstsHold w c` says that the variables recorded as constant have their value wherever they are read.
-/
namespace Verif
open Spec

variable {V S : Type}

/-- An expression used for its first value keeps it, along with every effect and error, whatever its non-constant parts do. -/
theorem C24_value {w : W V S} {c : FoldCtx} {arith : Bool} (hw : w.Ok c.lang arith) (hΓ : ConstsHold w c) {e e' : Ex} {k : Option LV}
    (hg : e.Good c.lang) (hs : e.Safe false) (h : c.ex e = some (e', k)) (ρ : Nat → Option Nat) (s : S) :
    (w.vals (litOf w c.lang) ρ e' s).map (fun p => (w.first p.1, p.2)) =
      (w.vals (litOf w c.lang) ρ e s).map (fun p => (w.first p.1, p.2)) :=
  (ex_ok (ρ := ρ) hw hΓ e hg hs h).one s

/-- An expression used for all its values (last argument, last of a list) keeps them.  Missing: `and`/`or` with a call or `...` on the
right in such a place (excluded by `Safe true`), see C24_count_counterexample. -/
theorem C24_values_partial {w : W V S} {c : FoldCtx} {arith : Bool} (hw : w.Ok c.lang arith) (hΓ : ConstsHold w c) {e e' : Ex}
    {k : Option LV} (hg : e.Good c.lang) (hs : e.Safe true) (h : c.ex e = some (e', k)) (ρ : Nat → Option Nat) (s : S) :
    w.vals (litOf w c.lang) ρ e' s = w.vals (litOf w c.lang) ρ e s :=
  (ex_ok (ρ := ρ) hw hΓ e hg (Ex.safe_mono hs) h).all hs s

/-- An expression declared constant evaluates to that constant without any effect. -/
theorem C24_known {w : W V S} {c : FoldCtx} {arith : Bool} (hw : w.Ok c.lang arith) (hΓ : ConstsHold w c) {e e' : Ex} {v : LV}
    (hg : e.Good c.lang) (hs : e.Safe false) (h : c.ex e = some (e', some v)) (ρ : Nat → Option Nat) (s : S) :
    ∃ x, LV.repr c.lang v = some x ∧ w.vals (litOf w c.lang) ρ e s = some ([w.inj x], s) := by
  have := ex_ok (ρ := ρ) hw hΓ e hg hs h
  obtain ⟨x, hx⟩ := (this.good v rfl).1
  exact ⟨x, hx, this.known v x rfl hx s⟩

/-- A world to try things in: function 0 counts its arguments, every other function returns two values and counts its calls. -/
def demoW (lang : Lang) : W Val Nat where
  inj := id
  truthy := Val.truthy
  read := fun _ _ _ => .nil
  alloc := fun vs s => (vs.map fun _ => s, s)
  un := fun op v s => (rtUn lang op v).map fun r => (r, s)
  bin := fun op x y s => (rtBin true op x y).map fun r => (r, s)
  builtin := fun f xs s => (rtCall true f xs).map fun r => ([r], s)
  call := fun k _ vs s => if k = 0 then some ([.num (BitVec.ofNat 32 (vs.length * 65536))], s) else some ([.nil, .nil], s + 1)
  other := fun _ _ _ s => some (.nil, s)
  stmt := fun _ _ vs s => some (s + vs.length)
  loop := fun _ _ _ f s => f s

theorem demoW_ok (lang : Lang) : (demoW lang).Ok lang true where
  truthy := fun _ => rfl
  un := fun op x r s h => by simp [demoW, h]
  bin := fun op x y r s h => by simp [demoW, h]
  builtin := fun f xs r s h => by simp [demoW, h]

def demoC : FoldCtx := ⟨.pico8, 9, fun _ => none, fun _ _ => false⟩

/-- `nil or (1 + 2 == 3 and g())` is folded to `(g())`. -/
example : let e := Ex.bin .or (.const .nil) (.group (.bin .and (.bin .eq (.bin .add (.const (.fix 0x10000)) (.const (.fix 0x20000)))
      (.const (.fix 0x30000))) (.call 1 .nil)))
    demoC.ex e = some (.group (.call 1 .nil), none) ∧ e.Safe true := by
  refine ⟨by rfl, ?_⟩
  simp [Ex.Safe, Exs.Safe, Ex.multi]

/-- `false and f()` is folded to `false`: `f` is not called either way. -/
example : demoC.ex (.bin .and (.const (.bool false)) (.call 1 .nil)) = some (.const (.bool false), some (.bool false)) := rfl

/-- `count(true and g())` passes one value, after folding to `count(g())` two. -/
theorem C24_count_counterexample :
    ∃ e e', demoC.ex e = some (e', none) ∧ e.Good .pico8 ∧
      (∀ ρ s, (demoW .pico8).vals (litOf (demoW .pico8) .pico8) ρ e s = some ([.num 0x10000#32], s + 1)) ∧
      (∀ ρ s, (demoW .pico8).vals (litOf (demoW .pico8) .pico8) ρ e' s = some ([.num 0x20000#32], s + 1)) :=
  ⟨.call 0 (.cons (.bin .and (.const (.bool true)) (.call 1 .nil)) .nil), .call 0 (.cons (.call 1 .nil) .nil), rfl,
    by simp [Ex.Good, Exs.Good, LV.Good, LV.repr],
    fun _ _ => by simp [W.vals, W.args, W.first, demoW, litOf, LV.repr, Val.truthy],
    fun _ _ => by simp [W.vals, W.args, demoW]⟩

/-! ### Statements -/

mutual
def stGood (lang : Lang) : St → Prop
  | .locals _ es => es.Good lang
  | .other _ es => es.Good lang
  | .ret es => es.Good lang
  | .brk => True
  | .label _ => True
  | .doB b => blGood lang b
  | .loop _ es b => es.Good lang ∧ blGood lang b
  | .ifS c t e => c.Good lang ∧ blGood lang t ∧ elGood lang e
def blGood (lang : Lang) : Bl → Prop
  | .nil => True
  | .cons s b => stGood lang s ∧ blGood lang b
def elGood (lang : Lang) : El → Prop
  | .none => True
  | .else_ b => blGood lang b
  | .elseif c t e => c.Good lang ∧ blGood lang t ∧ elGood lang e
end

mutual
/-- No `and`/`or` with several values on the right at the end of a list (see C24_count_counterexample). -/
def stSafe : St → Prop
  | .locals _ es => es.Safe
  | .other _ es => es.Safe
  | .ret es => es.Safe
  | .brk => True
  | .label _ => True
  | .doB b => blSafe b
  | .loop _ es b => es.Safe ∧ blSafe b
  | .ifS c t e => c.Safe false ∧ blSafe t ∧ elSafe e
def blSafe : Bl → Prop
  | .nil => True
  | .cons s b => stSafe s ∧ blSafe b
def elSafe : El → Prop
  | .none => True
  | .else_ b => blSafe b
  | .elseif c t e => c.Safe false ∧ blSafe t ∧ elSafe e
end

section
variable {w : W V S} {c : FoldCtx} {arith : Bool}

theorem append_nil (b : Bl) : b.append .nil = b := by
  induction b using Bl.rec (motive_1 := fun _ => True) (motive_3 := fun _ => True) <;> simp_all [Bl.append]

theorem exec_keeps {lit : LV → Option V} {ρ : Nat → Option Nat} {st : St} (h : ∀ xs es, st ≠ .locals xs es) {s : S}
    {p : (Nat → Option Nat) × Ctl V × S} (hp : w.exec lit ρ st s = some p) : p.1 = ρ := by
  cases st with
  | locals xs es => exact absurd rfl (h xs es)
  | other k es => simp only [W.exec, Option.bind_eq_some_iff, Option.map_eq_some_iff] at hp; obtain ⟨_, _, _, _, rfl⟩ := hp; rfl
  | ret es => simp only [W.exec, Option.map_eq_some_iff] at hp; obtain ⟨_, _, rfl⟩ := hp; rfl
  | brk => simp only [W.exec, Option.some.injEq] at hp; subst hp; rfl
  | label => simp only [W.exec, Option.some.injEq] at hp; subst hp; rfl
  | doB b => simp only [W.exec, Option.map_eq_some_iff] at hp; obtain ⟨_, _, rfl⟩ := hp; rfl
  | loop k es b => simp only [W.exec, Option.bind_eq_some_iff, Option.map_eq_some_iff] at hp; obtain ⟨_, _, _, _, rfl⟩ := hp; rfl
  | ifS c t e => simp only [W.exec, Option.bind_eq_some_iff, Option.map_eq_some_iff] at hp; obtain ⟨_, _, _, _, rfl⟩ := hp; rfl

/-- Go on with `r` after a block has ended. -/
def W.andThen (w : W V S) (lit : LV → Option V) (ρ : Nat → Option Nat) (r : Bl) (o : Option (Ctl V × S)) : Option (Ctl V × S) :=
  o.bind fun p => match p.1 with
    | .normal => w.run lit ρ r p.2
    | c => some (c, p.2)

/-- A block that declares nothing can be spliced into its parent. -/
theorem run_splice {lit : LV → Option V} {ρ : Nat → Option Nat} : ∀ (b : Bl) (r : Bl) (s : S), needsDo b = false →
    w.run lit ρ (b.append r) s = Verif.W.andThen w lit ρ r (w.run lit ρ b s)
  | .nil, r, s, _ => by simp [Bl.append, W.run, W.andThen]
  | .cons st b, r, s, h => by
    have hl : ∀ xs es, st ≠ .locals xs es := by rintro xs es rfl; simp [needsDo] at h
    have hb : needsDo b = false := by cases st <;> simp_all [needsDo]
    simp only [Bl.append, W.run, W.andThen]
    cases he : w.exec lit ρ st s with
    | none => rfl
    | some p =>
      have hρ := exec_keeps hl he
      obtain ⟨ρ', ctl, t⟩ := p
      simp only at hρ; subst hρ
      simp only [Option.bind_some]
      cases ctl with
      | normal => exact run_splice b r t hb
      | ret vs => rfl
      | brk => rfl

theorem run_doIfNeeded {lit : LV → Option V} {ρ : Nat → Option Nat} (b r : Bl) (s : S) :
    w.run lit ρ ((doIfNeeded b).append r) s = Verif.W.andThen w lit ρ r (w.run lit ρ b s) := by
  unfold doIfNeeded
  split
  · simp only [Bl.append, W.run, W.exec, W.andThen]
    cases w.run lit ρ b s <;> rfl
  · rename_i h; exact run_splice b r s (by simpa using h)

theorem run_if {lit : LV → Option V} {ρ : Nat → Option Nat} (e : Ex) (t : Bl) (el : El) (r : Bl) (s : S) :
    w.run lit ρ (.cons (.ifS e t el) r) s = (oneVal w lit ρ e s).bind fun p =>
      Verif.W.andThen w lit ρ r (if w.truthy p.1 then w.run lit ρ t p.2 else w.runElse lit ρ el p.2) := by
  simp only [W.run, W.exec, W.andThen, oneVal]
  cases w.vals lit ρ e s with
  | none => rfl
  | some p =>
    simp only [Option.bind_some, Option.map_some]
    generalize (if w.truthy (w.first p.1) = true then w.run lit ρ t p.2 else w.runElse lit ρ el p.2) = o
    cases o <;> rfl

theorem truthy_known (hw : w.Ok c.lang arith) {v : LV} {x : Val} (hx : LV.repr c.lang v = some x) : w.truthy (w.inj x) = v.truthy := by
  rw [hw.truthy, repr_truthy hx]

mutual
theorem st_ok (hw : w.Ok c.lang arith) (hΓ : ConstsHold w c) : ∀ (st : St) {b : Bl}, stGood c.lang st → stSafe st → c.st st = some b →
    ∀ ρ r s, w.run (litOf w c.lang) ρ (b.append r) s = w.run (litOf w c.lang) ρ (.cons st r) s
  | .locals xs es, b, hg, hs, h, ρ, r, s => by
    simp only [FoldCtx.st, Option.map_eq_some_iff] at h
    obtain ⟨p, hp, rfl⟩ := h
    simp only [Bl.append, W.run, W.exec, (exs_ok hw hΓ es hg hs hp).1]
  | .other k es, b, hg, hs, h, ρ, r, s => by
    simp only [FoldCtx.st, Option.map_eq_some_iff] at h
    obtain ⟨p, hp, rfl⟩ := h
    simp only [Bl.append, W.run, W.exec, (exs_ok hw hΓ es hg hs hp).1]
  | .ret es, b, hg, hs, h, ρ, r, s => by
    simp only [FoldCtx.st, Option.map_eq_some_iff] at h
    obtain ⟨p, hp, rfl⟩ := h
    simp only [Bl.append, W.run, W.exec, (exs_ok hw hΓ es hg hs hp).1]
  | .brk, b, _, _, h, ρ, r, s => by simp only [FoldCtx.st, Option.some.injEq] at h; subst h; rfl
  | .label l, b, _, _, h, ρ, r, s => by simp only [FoldCtx.st, Option.some.injEq] at h; subst h; rfl
  | .doB b', b, hg, hs, h, ρ, r, s => by
    simp only [FoldCtx.st, Option.map_eq_some_iff] at h
    obtain ⟨p, hp, rfl⟩ := h
    simp only [Bl.append, W.run, W.exec, bl_ok hw hΓ b' hg hs hp]
  | .loop k es b', b, hg, hs, h, ρ, r, s => by
    simp only [FoldCtx.st, Option.bind_eq_some_iff, Option.map_eq_some_iff] at h
    obtain ⟨p, hp, q, hq, rfl⟩ := h
    simp only [Bl.append, W.run, W.exec, (exs_ok hw hΓ es hg.1 hs.1 hp).1, bl_ok hw hΓ b' hg.2 hs.2 hq]
  | .ifS e t el, b, hg, hs, h, ρ, r, s => by
    simp only [FoldCtx.st, Option.bind_eq_some_iff, Option.map_eq_some_iff] at h
    obtain ⟨p, hp, t', ht, el', hel, rfl⟩ := h
    have he := ex_ok (ρ := ρ) hw hΓ e hg.1 hs.1 hp
    have hT := fun s => bl_ok hw hΓ t hg.2.1 hs.2.1 ht ρ s
    have hE := fun s => el_ok hw hΓ el hg.2.2 hs.2.2 hel ρ s
    rw [run_if]
    unfold stepIf
    split
    · simp only [Bl.append]
      rw [run_if, he.one]
      simp only [hT, hE]
    · rename_i v hv
      obtain ⟨x, hx⟩ := (he.good v hv).1
      rw [one_const (fun s => he.known v x hv hx s)]
      simp only [Option.bind_some, truthy_known hw hx]
      split
      · rw [run_doIfNeeded, hT]
      · rw [← hE]
        split
        · simp [Bl.append, W.runElse, W.andThen]
        · rw [run_doIfNeeded]; rfl
        · simp only [Bl.append, W.runElse]
          rw [run_if]
          simp only [oneVal]
          cases w.vals (litOf w c.lang) ρ _ s <;> rfl
theorem bl_ok (hw : w.Ok c.lang arith) (hΓ : ConstsHold w c) : ∀ (b : Bl) {b' : Bl}, blGood c.lang b → blSafe b → c.bl b = some b' →
    ∀ ρ s, w.run (litOf w c.lang) ρ b' s = w.run (litOf w c.lang) ρ b s
  | .nil, b', _, _, h, ρ, s => by simp only [FoldCtx.bl, Option.some.injEq] at h; subst h; rfl
  | .cons st b, b', hg, hs, h, ρ, s => by
    simp only [FoldCtx.bl, Option.bind_eq_some_iff, Option.map_eq_some_iff] at h
    obtain ⟨x, hx, y, hy, rfl⟩ := h
    rw [st_ok hw hΓ st hg.1 hs.1 hx]
    simp only [W.run, bl_ok hw hΓ b hg.2 hs.2 hy]
theorem el_ok (hw : w.Ok c.lang arith) (hΓ : ConstsHold w c) : ∀ (e : El) {e' : El}, elGood c.lang e → elSafe e → c.el e = some e' →
    ∀ ρ s, w.runElse (litOf w c.lang) ρ e' s = w.runElse (litOf w c.lang) ρ e s
  | .none, e', _, _, h, ρ, s => by simp only [FoldCtx.el, Option.some.injEq] at h; subst h; rfl
  | .else_ b, e', hg, hs, h, ρ, s => by
    simp only [FoldCtx.el, Option.map_eq_some_iff] at h
    obtain ⟨p, hp, rfl⟩ := h
    simp only [W.runElse, bl_ok hw hΓ b hg hs hp]
  | .elseif e t el, e', hg, hs, h, ρ, s => by
    simp only [FoldCtx.el, Option.bind_eq_some_iff, Option.map_eq_some_iff] at h
    obtain ⟨p, hp, t', ht, el', hel, rfl⟩ := h
    have he := ex_ok (ρ := ρ) hw hΓ e hg.1 hs.1 hp
    have hT := fun s => bl_ok hw hΓ t hg.2.1 hs.2.1 ht ρ s
    have hE := fun s => el_ok hw hΓ el hg.2.2 hs.2.2 hel ρ s
    have step : ∀ (e : Ex) t el s, w.runElse (litOf w c.lang) ρ (.elseif e t el) s = (oneVal w (litOf w c.lang) ρ e s).bind fun p =>
        if w.truthy p.1 then w.run (litOf w c.lang) ρ t p.2 else w.runElse (litOf w c.lang) ρ el p.2 := by
      intro e t el s
      simp only [W.runElse, oneVal]; cases w.vals (litOf w c.lang) ρ e s <;> rfl
    rw [step]
    unfold stepElseif
    split
    · rw [step, he.one]; simp only [hT, hE]
    · rename_i v hv
      obtain ⟨x, hx⟩ := (he.good v hv).1
      rw [one_const (fun s => he.known v x hv hx s)]
      simp only [Option.bind_some, truthy_known hw hx]
      split
      · simp only [W.runElse, hT]
      · rw [hE]
end
end

/-- Folding a block, in particular choosing among the branches of `if` statements, changes nothing about its execution: the same
branches run with the same visible names, in every world.  (Same exclusion as C24_values_partial; `goto` is not modelled.) -/
theorem C24_block_partial {w : W V S} {c : FoldCtx} {arith : Bool} (hw : w.Ok c.lang arith) (hΓ : ConstsHold w c) {b b' : Bl}
    (hg : blGood c.lang b) (hs : blSafe b) (h : c.bl b = some b') (ρ : Nat → Option Nat) (s : S) :
    w.run (litOf w c.lang) ρ b' s = w.run (litOf w c.lang) ρ b s :=
  bl_ok hw hΓ b hg hs h ρ s

/-- `if false then a() elseif 1 < 2 then local x = g() b(x) end c()` becomes `do local x = g() b(x) end c()`. -/
example :
    let then_ := Bl.cons (.locals [7] (.cons (.call 1 .nil) .nil)) (.cons (.other 2 (.cons (.var 7) .nil)) .nil)
    let cond := Ex.bin .lt (.const (.fix 0x10000)) (.const (.fix 0x20000))
    let if_ := St.ifS (.const (.bool false)) (.cons (.other 1 .nil) .nil) (.elseif cond then_ .none)
    let b := Bl.cons if_ (.cons (.other 3 .nil) .nil)
    demoC.bl b = some (.cons (.doB then_) (.cons (.other 3 .nil) .nil)) ∧ blSafe b := by
  refine ⟨by rfl, ?_⟩
  simp [blSafe, stSafe, elSafe, Ex.Safe, Exs.Safe]

/-! ### The result is still Lua -/

theorem retLast_append : ∀ (b r : Bl), b.RetLast → r.RetLast → needsDo b = false → (b.append r).RetLast
  | .nil, r, _, hr, _ => hr
  | .cons st b, r, hb, hr, h => by
    simp only [Bl.RetLast] at hb
    have hb' : needsDo b = false := by cases st <;> simp_all [needsDo]
    simp only [Bl.append, Bl.RetLast]
    refine ⟨hb.1, retLast_append b r hb.2.1 hr hb', ?_⟩
    rintro ⟨es, rfl⟩
    simp [needsDo] at h

theorem retLast_doIfNeeded (b r : Bl) (hb : b.RetLast) (hr : r.RetLast) : ((doIfNeeded b).append r).RetLast := by
  unfold doIfNeeded
  split
  · simp only [Bl.append, Bl.RetLast, St.RetLast]; exact ⟨hb, hr, by rintro ⟨es, h⟩; cases h⟩
  · rename_i h; exact retLast_append b r hb hr (by simpa using h)

theorem retLast_single {st : St} {r : Bl} (h : st.RetLast) (hr : r.RetLast) (hn : ∀ es, st ≠ .ret es) : (Bl.append (.cons st .nil) r).RetLast := by
  simp only [Bl.append, Bl.RetLast]; exact ⟨h, hr, by rintro ⟨es, rfl⟩; exact absurd rfl (hn es)⟩

theorem retLast_stepIf {e : Ex} {k : Option LV} {t : Bl} {el : El} {r : Bl} (ht : t.RetLast) (hel : el.RetLast) (hr : r.RetLast) :
    ((stepIf e k t el).append r).RetLast := by
  unfold stepIf
  split
  · exact retLast_single (by simp only [St.RetLast]; exact ⟨ht, hel⟩) hr (by simp)
  · split
    · exact retLast_doIfNeeded t r ht hr
    · split
      · exact hr
      · exact retLast_doIfNeeded _ r (by simpa only [El.RetLast] using hel) hr
      · exact retLast_single (by simpa only [St.RetLast, El.RetLast] using hel) hr (by simp)

theorem retLast_stepElseif {e : Ex} {k : Option LV} {t : Bl} {el : El} (ht : t.RetLast) (hel : el.RetLast) :
    (stepElseif e k t el).RetLast := by
  unfold stepElseif
  split
  · simp only [El.RetLast]; exact ⟨ht, hel⟩
  · split
    · simpa only [El.RetLast] using ht
    · exact hel

mutual
theorem retLast_st (c : FoldCtx) : ∀ (st : St) {b : Bl}, st.RetLast → c.st st = some b → ∀ r : Bl, r.RetLast →
    ((∃ es, st = .ret es) → r = .nil) → (b.append r).RetLast
  | .locals xs es, b, _, h, r, hr, _ => by
    simp only [FoldCtx.st, Option.map_eq_some_iff] at h; obtain ⟨p, hp, rfl⟩ := h
    exact retLast_single (by simp only [St.RetLast]) hr (by simp)
  | .other k es, b, _, h, r, hr, _ => by
    simp only [FoldCtx.st, Option.map_eq_some_iff] at h; obtain ⟨p, hp, rfl⟩ := h
    exact retLast_single (by simp only [St.RetLast]) hr (by simp)
  | .ret es, b, _, h, r, hr, hn => by
    simp only [FoldCtx.st, Option.map_eq_some_iff] at h; obtain ⟨p, hp, rfl⟩ := h
    rw [hn ⟨es, rfl⟩]; simp [Bl.append, Bl.RetLast, St.RetLast]
  | .brk, b, _, h, r, hr, _ => by
    simp only [FoldCtx.st, Option.some.injEq] at h; subst h
    exact retLast_single (by simp only [St.RetLast]) hr (by simp)
  | .label l, b, _, h, r, hr, _ => by
    simp only [FoldCtx.st, Option.some.injEq] at h; subst h
    exact retLast_single (by simp only [St.RetLast]) hr (by simp)
  | .doB b', b, hb, h, r, hr, _ => by
    simp only [FoldCtx.st, Option.map_eq_some_iff] at h; obtain ⟨p, hp, rfl⟩ := h
    simp only [St.RetLast] at hb
    exact retLast_single (by simp only [St.RetLast]; exact retLast_bl c b' hb hp) hr (by simp)
  | .loop k es b', b, hb, h, r, hr, _ => by
    simp only [FoldCtx.st, Option.bind_eq_some_iff, Option.map_eq_some_iff] at h; obtain ⟨p, hp, q, hq, rfl⟩ := h
    simp only [St.RetLast] at hb
    exact retLast_single (by simp only [St.RetLast]; exact retLast_bl c b' hb hq) hr (by simp)
  | .ifS e t el, b, hb, h, r, hr, _ => by
    simp only [FoldCtx.st, Option.bind_eq_some_iff, Option.map_eq_some_iff] at h
    obtain ⟨p, hp, t', ht, el', hel, rfl⟩ := h
    simp only [St.RetLast] at hb
    exact retLast_stepIf (retLast_bl c t hb.1 ht) (retLast_el c el hb.2 hel) hr
theorem retLast_bl (c : FoldCtx) : ∀ (b : Bl) {b' : Bl}, b.RetLast → c.bl b = some b' → b'.RetLast
  | .nil, b', _, h => by simp only [FoldCtx.bl, Option.some.injEq] at h; subst h; simp only [Bl.RetLast]
  | .cons st b, b', hb, h => by
    simp only [FoldCtx.bl, Option.bind_eq_some_iff, Option.map_eq_some_iff] at h
    obtain ⟨x, hx, y, hy, rfl⟩ := h
    simp only [Bl.RetLast] at hb
    refine retLast_st c st hb.1 hx y (retLast_bl c b hb.2.1 hy) ?_
    intro he
    rw [hb.2.2 he] at hy
    simpa [FoldCtx.bl] using hy.symm
theorem retLast_el (c : FoldCtx) : ∀ (e : El) {e' : El}, e.RetLast → c.el e = some e' → e'.RetLast
  | .none, e', _, h => by simp only [FoldCtx.el, Option.some.injEq] at h; subst h; simp only [El.RetLast]
  | .else_ b, e', hb, h => by
    simp only [FoldCtx.el, Option.map_eq_some_iff] at h; obtain ⟨p, hp, rfl⟩ := h
    simp only [El.RetLast] at hb ⊢
    exact retLast_bl c b hb hp
  | .elseif e t el, e', hb, h => by
    simp only [FoldCtx.el, Option.bind_eq_some_iff, Option.map_eq_some_iff] at h
    obtain ⟨p, hp, t', ht, el', hel, rfl⟩ := h
    simp only [El.RetLast] at hb
    exact retLast_stepElseif (retLast_bl c t hb.1 ht) (retLast_el c el hb.2 hel)
end

/-- `return` stays last in every block, although branches are spliced into their parents. -/
theorem C24_return_last {c : FoldCtx} {b b' : Bl} (hb : b.RetLast) (h : c.bl b = some b') : b'.RetLast := retLast_bl c b hb h

/-- `if true then return end f()` keeps its `return` in a block of its own. -/
example : demoC.bl (.cons (.ifS (.const (.bool true)) (.cons (.ret .nil) .nil) .none) (.cons (.other 1 .nil) .nil)) =
    some (.cons (.doB (.cons (.ret .nil) .nil)) (.cons (.other 1 .nil) .nil)) := rfl

/-- Labels are not protected in the same way: two `if true then ... ::done:: end` in a row end up declaring the label twice in one
block, which Lua rejects. -/
theorem C24_label_counterexample : ∃ b b', b.labels.Nodup ∧ b.LabelsOk ∧ demoC.bl b = some b' ∧ ¬ b'.labels.Nodup := by
  refine ⟨.cons (.ifS (.const (.bool true)) (.cons (.label 5) .nil) .none) (.cons (.ifS (.const (.bool true)) (.cons (.label 5) .nil) .none) .nil),
    .cons (.label 5) (.cons (.label 5) .nil), ?_, ?_, rfl, ?_⟩ <;> simp [Bl.labels, Bl.LabelsOk, St.LabelsOk, El.LabelsOk]

end Verif
