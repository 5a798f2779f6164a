import Verif.MergeAsgLemmas
/-! C32: merging assignments keeps the final state. -/
namespace Verif.MergeAsg

variable {V W : Type}

/-- C32, assignments and local declarations whose targets are variables: for every interpretation of
the operations that satisfies the laws, and every state, running the merged statement has the effect
of running the two statements.

Missing from the full claim: targets that are table members (there the order of evaluation can
differ, see the counterexamples), and the case that `next` has no sources at all while the last
source of `prev` is a call or `...`, where the claim is false (`C32_vararg_counterexample`). -/
theorem C32_merge_partial (info : Nat → VarInfo) (callbacks : Nat → Bool) (safe hasEnv : Bool)
    (prev next : Stmt) (I : Interp V W) (hl : Laws I info callbacks prev.isLocal safe)
    (hp : allVars prev.targets = true) (hn : allVars next.targets = true)
    (hm : merges info callbacks safe hasEnv prev next = true)
    (hv : next.sources = [] → lastVararg prev.sources = false) (s : St V W) :
    exec I (mergeStmt prev next) s = exec I next (exec I prev s) := by
  obtain ⟨il, tp, sp⟩ := prev
  obtain ⟨il', tn, sn⟩ := next
  simp only at hp hn hl hv
  rw [allVars_eq hp, allVars_eq hn] at *
  exact exec_merge hl hm hv s

/-- C32: after merged local declarations every name means the variable that it means after the two
declarations, also when names are declared twice. -/
theorem C32_names (info : Nat → VarInfo) (callbacks : Nat → Bool) (safe hasEnv : Bool)
    (tp tn : List Nat) (sp sn : List E)
    (hm : merges info callbacks safe hasEnv ⟨true, tp.map .var, sp⟩ ⟨true, tn.map .var, sn⟩ = true)
    (name : Nat) :
    lookup info (targetVars (mergeStmt ⟨true, tp.map .var, sp⟩ ⟨true, tn.map .var, sn⟩).targets) name
      = lookup info (tp ++ tn) name := by
  simp only [merges, Bool.and_eq_true, namesOk, Bool.true_and, Bool.not_eq_true'] at hm
  have h : targetVars (mergeStmt ⟨true, tp.map .var, sp⟩ ⟨true, tn.map .var, sn⟩).targets =
      tp.take sp.length ++ tn ++ tp.drop sp.length := by
    simp only [mergeStmt, ← List.map_take, ← List.map_drop, ← List.map_append, targetVars_map]
  rw [h]
  refine lookup_merge ?_ name
  have := hm.2
  simp only [targetNames, ← List.map_drop, targetVars_map] at this
  exact this

/-- C32: in the default mode (only local declarations are merged, no assumption on metamethods),
nothing is assumed beyond: code cannot reach a local variable that is only being declared, and
making a table or function runs no code. -/
theorem C32_locals_partial (info : Nat → VarInfo) (callbacks : Nat → Bool) (hasEnv : Bool)
    (tp tn : List Nat) (sp sn : List E) (I : Interp V W)
    (htab : ∀ vs x, Blind (I.table vs) x) (hfun : ∀ id x, Blind (I.func id) x)
    (hops : ∀ x, (info x).global = false →
      (∀ o v, Blind (I.un o v) x) ∧ (∀ o v w, Blind (I.bin o v w) x) ∧
      (∀ v n, Blind (I.member v n) x) ∧ (∀ v w, Blind (I.index v w) x) ∧
      (∀ f vs, Blind (I.bcall f vs) x) ∧ (∀ v vs, Blind (I.call v vs) x))
    (hm : merges info callbacks true hasEnv ⟨true, tp.map .var, sp⟩ ⟨true, tn.map .var, sn⟩ = true)
    (hv : sn = [] → lastVararg sp = false) (s : St V W) :
    exec I (mergeStmt ⟨true, tp.map .var, sp⟩ ⟨true, tn.map .var, sn⟩) s =
      exec I ⟨true, tn.map .var, sn⟩ (exec I ⟨true, tp.map .var, sp⟩ s) := by
  have hu : ∀ x, unreachable info true x = true → (info x).global = false := by
    intro x h
    simpa [unreachable] using h
  refine exec_merge (safe := true) ⟨htab, hfun, ?_, ?_, ?_, ?_, ?_, ?_⟩ hm hv s
  · rintro o v x (h | h)
    · exact (hops x (hu x h)).1 o v
    · cases h
  · rintro o v w x (h | h)
    · exact (hops x (hu x h)).2.1 o v w
    · cases h
  · rintro v n x (h | h)
    · exact (hops x (hu x h)).2.2.1 v n
    · cases h
  · rintro v w x (h | h)
    · exact (hops x (hu x h)).2.2.2.1 v w
    · cases h
  · rintro f vs x (h | h)
    · exact (hops x (hu x h)).2.2.2.2.1 f vs
    · exact absurd h.1 (by simp)
  · intro v vs x h
    exact (hops x (hu x h)).2.2.2.2.2 v vs

/-! Concrete cases. -/

/-- Variables below 10 are locals named like their number modulo 5; the others are globals. -/
def demoInfo (x : Nat) : VarInfo := ⟨decide (x ≥ 10), false, x % 5⟩

/-- Integers; the world is a counter that every call increases; a call returns the counter and
100. -/
def demoI : Interp Int Int where
  nil := 0
  const k := (k : Int)
  varargs := [7, 8]
  truthy v := decide (v ≠ 0)
  not v := if v = 0 then 1 else 0
  un _ v s := (-v, s)
  bin _ v w s := (v + w, s)
  member v n s := (v + n, s)
  index v w s := (v * w, s)
  call _ _ s := ([s.w, 100], { s with w := s.w + 1 })
  bcall _ _ s := ([s.w, 100], { s with w := s.w + 1 })
  table vs s := ((vs.length : Int), s)
  func id s := ((id : Int), s)
  putMember _ n v s := { s with w := s.w * 10 + n + v }
  putIndex _ k v s := { s with w := s.w * 10 + k + v }

theorem demo_laws (il safe : Bool) : Laws demoI demoInfo (fun _ => false) il safe := by
  constructor <;> intros <;> intro s v <;> simp [demoI, St.set]

/-- `local a,b=f(),c` and `local d,e=2`. -/
def demoPrev : Stmt := ⟨true, [.var 1, .var 2, .var 3], [.call (.var 12) .nil, .var 4]⟩
def demoNext : Stmt := ⟨true, [.var 6, .var 5], [.bin 0 (.var 4) (.const 2)]⟩

example : merges demoInfo (fun _ => false) true true demoPrev demoNext = true := by decide +kernel
example : allVars demoPrev.targets = true ∧ allVars demoNext.targets = true := by decide +kernel
/-- The target without a source moves to the end; the name shared by variables 1 and 6 keeps meaning
the later one. -/
example : targetVars (mergeStmt demoPrev demoNext).targets = [1, 2, 6, 5, 3] ∧
    lookup demoInfo [1, 2, 6, 5, 3] 1 = some 6 := by decide +kernel
example : ((exec demoI (mergeStmt demoPrev demoNext) ⟨fun x => x, 40⟩).vars) 1 = 40 ∧
    ((exec demoI (mergeStmt demoPrev demoNext) ⟨fun x => x, 40⟩).vars) 6 = 6 := by decide +kernel

/-- Not merged: the second statement uses the first one's variable; a global is assigned and the
second statement calls something; a moved local has the name of a new one. -/
example : merges demoInfo (fun _ => false) true true demoPrev ⟨true, [.var 6], [.var 2]⟩ = false ∧
    merges demoInfo (fun _ => false) false true ⟨false, [.var 11], [.const 1]⟩
      ⟨false, [.var 6], [.call (.var 12) .nil]⟩ = false ∧
    merges demoInfo (fun _ => false) true true ⟨true, [.var 1, .var 2], [.const 1]⟩
      ⟨true, [.var 7], [.const 1]⟩ = false := by decide +kernel

/-! Where the claim fails. -/

/-- C32 fails for `local a=f()` followed by `local b`: they are merged into `local a,b=f()`, which
gives `b` the second value of the call instead of nil. -/
theorem C32_vararg_counterexample :
    let prev : Stmt := ⟨true, [.var 1], [.call (.var 12) .nil]⟩
    let next : Stmt := ⟨true, [.var 2], []⟩
    merges demoInfo (fun _ => false) true false prev next = true ∧
    (exec demoI next (exec demoI prev ⟨fun _ => 0, 40⟩)).vars 2 = 0 ∧
    (exec demoI (mergeStmt prev next) ⟨fun _ => 0, 40⟩).vars 2 = 100 := by
  decide +kernel

/-- A call that replaces the table in global variable 11. -/
def demoSwap : Interp Int Int :=
  { demoI with
    call := fun _ _ s => ([1], s.set 11 77)
    putMember := fun o _ _ s => { s with w := o } }

/-- C32 fails for `a=f()` followed by `t.x=1` (`a` an uncaptured local, `t` a global that `f`
replaces), also with only safe reordering: `a,t.x=f(),1` reads `t` before it calls `f`. -/
theorem C32_target_order_counterexample :
    let prev : Stmt := ⟨false, [.var 1], [.call (.var 12) .nil]⟩
    let next : Stmt := ⟨false, [.member (.var 11) 5], [.const 1]⟩
    merges demoInfo (fun _ => false) true false prev next = true ∧
    (exec demoSwap next (exec demoSwap prev ⟨fun _ => 33, 0⟩)).w = 77 ∧
    (exec demoSwap (mergeStmt prev next) ⟨fun _ => 33, 0⟩).w = 33 := by
  decide +kernel

/-- A table with a length operator. -/
def demoLen : Interp Int Int :=
  { demoI with
    un := fun _ _ s => (s.w, s)
    putIndex := fun _ _ _ s => { s with w := s.w + 1 } }

/-- C32 fails for `t[1]=5` followed by `n=#t` unless only safe reordering is asked for: `#t` counts
as using no freshly assigned member. -/
theorem C32_length_counterexample :
    let prev : Stmt := ⟨false, [.index (.var 11) (.const 1)], [.const 5]⟩
    let next : Stmt := ⟨false, [.var 12], [.un 0 (.var 11)]⟩
    merges demoInfo (fun _ => false) false false prev next = true ∧
    (exec demoLen next (exec demoLen prev ⟨fun _ => 0, 0⟩)).vars 12 = 1 ∧
    (exec demoLen (mergeStmt prev next) ⟨fun _ => 0, 0⟩).vars 12 = 0 := by
  decide +kernel

/-- Assigning a table member runs code that records global variable 12. -/
def demoNewindex : Interp Int Int :=
  { demoI with putIndex := fun _ _ _ s => { s with w := s.vars 12 } }

/-- C32 fails for `t[1]=5` followed by `y=2` also with only safe reordering, if assigning to `t` runs
code that reads `y`: the last target of a multiple assignment is assigned first. -/
theorem C32_newindex_counterexample :
    let prev : Stmt := ⟨false, [.index (.var 11) (.const 1)], [.const 5]⟩
    let next : Stmt := ⟨false, [.var 12], [.const 2]⟩
    merges demoInfo (fun _ => false) true false prev next = true ∧
    (exec demoNewindex next (exec demoNewindex prev ⟨fun _ => 0, 0⟩)).w = 0 ∧
    (exec demoNewindex (mergeStmt prev next) ⟨fun _ => 0, 0⟩).w = 2 := by
  decide +kernel

end Verif.MergeAsg
