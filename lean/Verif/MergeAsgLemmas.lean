import Verif.Spec.MergeAsg
/-! Lemmas about merging assignments. -/
namespace Verif.MergeAsg

variable {V W : Type}

theorem Blind.first {I : Interp V W} {f : St V W → List V × St V W} {x} (h : Blind f x) :
    Blind (fun s => first I (f s)) x := by
  intro s v
  simp [MergeAsg.first, h s v]

theorem Blind.first_eq {I : Interp V W} {f : St V W → List V × St V W} {x} (h : Blind f x) (s v) :
    MergeAsg.first I (f (s.set x v)) =
      ((MergeAsg.first I (f s)).1, (MergeAsg.first I (f s)).2.set x v) := by
  simp [MergeAsg.first, h s v]

theorem Blind.one {f : St V W → V × St V W} {x} (h : Blind f x) :
    Blind (fun s => one (f s)) x := by
  intro s v
  simp [MergeAsg.one, h s v]

theorem Blind.bind {A B : Type} {f : St V W → A × St V W} {g : A → St V W → B × St V W} {x}
    (hf : Blind f x) (hg : ∀ a, Blind (g a) x) : Blind (fun s => g (f s).1 (f s).2) x := by
  intro s v
  simp only [hf s v, hg _ _ v]

/-- The variable is not named, and either cannot be reached by any code or the expression runs
none. -/
def Free (info : Nat → VarInfo) (isLocal : Bool) (_o : TrivOpts) (x : Nat) (t : Bool) : Prop :=
  unreachable info isLocal x = true ∨ t = true

theorem Free.and {info il o x a b} (h : Free info il o x (a && b)) :
    Free info il o x a ∧ Free info il o x b := by
  unfold Free at *
  cases a <;> cases b <;> simp_all

mutual
theorem ev_blind {I : Interp V W} {info il o x ms}
    (hl : Laws I info o.callbacks il o.safe) : ∀ (e : E), contains [x] ms e = false →
    Free info il o x (trivialE info o e) → Blind (ev I e) x
  | .const k, _, _ => by intro s v; simp [ev]
  | .varargs, _, _ => by intro s v; simp [ev]
  | .var y, hc, _ => by
    intro s v
    simp only [contains, List.contains_cons, List.contains_nil, Bool.or_false, beq_eq_false_iff_ne,
      ne_eq] at hc
    simp [ev, St.set, hc]
  | .group e, hc, hf => by
    have ih := ev_blind hl e (by simpa [contains] using hc) (by simpa [trivialE] using hf)
    intro s v
    simpa [ev] using (ih.first.one) s v
  | .notE e, hc, hf => by
    have ih := ev_blind hl e (by simpa [contains] using hc) (by simpa [trivialE] using hf)
    intro s v
    simp only [ev]
    rw [ih.first_eq s v]
  | .logic a l r, hc, hf => by
    simp only [contains, Bool.or_eq_false_iff] at hc
    simp only [trivialE] at hf
    have ihl := ev_blind hl l hc.1 hf.and.1
    have ihr := ev_blind hl r hc.2 hf.and.2
    intro s v
    simp only [ev]
    rw [ihl.first_eq s v]
    split
    · exact ihr.first.one _ v
    · rfl
  | .un k e, hc, hf => by
    simp only [trivialE] at hf
    have ih := ev_blind hl e (by simpa [contains] using hc) hf.and.2
    have hop : ∀ a, Blind (I.un k a) x := fun a => hl.un k a x (by
      have := hf.and.1
      unfold Free at this
      simpa using this)
    exact (ih.first.bind (fun a => (hop a).one))
  | .bin k l r, hc, hf => by
    simp only [contains, Bool.or_eq_false_iff] at hc
    simp only [trivialE] at hf
    have ihl := ev_blind hl l hc.1 hf.and.1.and.2
    have ihr := ev_blind hl r hc.2 hf.and.2
    have hop : ∀ a b, Blind (I.bin k a b) x := fun a b => hl.bin k a b x (by
      have := hf.and.1.and.1
      unfold Free at this
      simpa using this)
    exact (ihl.first.bind (fun a => ihr.first.bind (fun b => (hop a b).one)))
  | .member e n, hc, hf => by
    simp only [contains, Bool.or_eq_false_iff] at hc
    simp only [trivialE] at hf
    have ih := ev_blind hl e hc.1 hf.and.2
    have hop : ∀ a, Blind (I.member a n) x := fun a => hl.member a n x (by
      have := hf.and.1.and.2
      unfold Free at this
      simpa using this)
    exact (ih.first.bind (fun a => (hop a).one))
  | .index l r, hc, hf => by
    simp only [contains, Bool.or_eq_false_iff] at hc
    simp only [trivialE] at hf
    have ihl := ev_blind hl l hc.1 hf.and.1.and.2
    have ihr := ev_blind hl r hc.2 hf.and.2
    have hop : ∀ a b, Blind (I.index a b) x := fun a b => hl.index a b x (by
      have := hf.and.1.and.1.and.2
      unfold Free at this
      simpa using this)
    exact (ihl.first.bind (fun a => ihr.first.bind (fun b => (hop a b).one)))
  | .call f args, hc, hf => by
    simp only [contains, Bool.or_eq_false_iff] at hc
    have hu : unreachable info il x = true := by
      rcases hf with h | h
      · exact h
      · simp [trivialE] at h
    have ihf := ev_blind hl f hc.1 (.inl hu)
    have iha := evs_blind hl args hc.2 (.inl hu)
    have hop : ∀ a b, Blind (I.call a b) x := fun a b => hl.call a b x hu
    exact (ihf.first.bind (fun a => iha.bind (fun b => hop a b)))
  | .bcall f args, hc, hf => by
    simp only [contains] at hc
    simp only [trivialE] at hf
    have iha := evs_blind hl args hc hf.and.2
    have hop : ∀ b, Blind (I.bcall f b) x := fun b => hl.bcall f b x (by
      have := hf.and.1
      unfold Free at this
      rcases this with h | h
      · exact .inl h
      · right
        simp at h
        exact ⟨h.1.1, h.2⟩)
    exact (iha.bind (fun b => hop b))
  | .table items, hc, hf => by
    simp only [contains] at hc
    simp only [trivialE] at hf
    have iha := evs_blind hl items hc hf
    exact (iha.bind (fun b => (hl.table b x).one))
  | .func id uses members, _, _ => (hl.func id x).one
theorem evs_blind {I : Interp V W} {info il o x ms}
    (hl : Laws I info o.callbacks il o.safe) : ∀ (es : Es), containsAll [x] ms es = false →
    Free info il o x (trivialAll info o es) → Blind (evs I es) x
  | .nil, _, _ => by intro s v; simp [evs]
  | .cons e .nil, hc, hf => by
    simp only [containsAll, Bool.or_eq_false_iff] at hc
    simp only [trivialAll] at hf
    have := ev_blind hl e hc.1 hf.and.1
    intro s v
    simpa [evs] using this s v
  | .cons e (.cons e' es), hc, hf => by
    rw [containsAll] at hc
    rw [trivialAll] at hf
    simp only [Bool.or_eq_false_iff] at hc
    have h1 := ev_blind hl e hc.1 hf.and.1
    have h2 := evs_blind hl (.cons e' es) hc.2 hf.and.2
    intro s v
    simp only [evs]
    rw [h1.first_eq s v, h2 _ v]
end

theorem evSources_cons2 (I : Interp V W) (e e' : E) (es : List E) (s : St V W) :
    evSources I (e :: e' :: es) s =
      ((first I (ev I e s)).1 :: (evSources I (e' :: es) (first I (ev I e s)).2).1,
        (evSources I (e' :: es) (first I (ev I e s)).2).2) := rfl

theorem evSources_blind {I : Interp V W} {x} : ∀ (es : List E),
    (∀ e ∈ es, Blind (ev I e) x) → Blind (evSources I es) x
  | [], _ => by intro s v; simp [evSources]
  | [e], h => by
    intro s v
    simpa [evSources] using h e (by simp) s v
  | e :: e' :: es, h => by
    have h1 := h e (by simp)
    have h2 := evSources_blind (e' :: es) (fun a ha => h a (by simp [ha]))
    intro s v
    rw [evSources_cons2, evSources_cons2, h1.first_eq s v, h2 _ v]

/-- Setting several variables, the last one first. -/
def setAll : List Nat → List V → St V W → St V W
  | x :: xs, v :: vs, s => (setAll xs vs s).set x v
  | _, _, s => s

theorem blind_setAll {A : Type} {f : St V W → A × St V W} : ∀ (xs : List Nat) (vs : List V) (s),
    (∀ x ∈ xs, Blind f x) → f (setAll xs vs s) = ((f s).1, setAll xs vs (f s).2)
  | [], vs, s, _ => by simp [setAll]
  | x :: xs, [], s, _ => by simp [setAll]
  | x :: xs, v :: vs, s, h => by
    simp only [setAll]
    rw [h x (by simp) _ v, blind_setAll xs vs s (fun y hy => h y (by simp [hy]))]

theorem set_comm (s : St V W) {x y : Nat} (h : x ≠ y) (v w : V) :
    (s.set x v).set y w = (s.set y w).set x v := by
  unfold St.set
  congr 1
  funext z
  by_cases h1 : z = x <;> by_cases h2 : z = y <;> simp_all

theorem setAll_set : ∀ (xs : List Nat) (vs : List V) (s : St V W) (y : Nat) (w : V), y ∉ xs →
    setAll xs vs (s.set y w) = (setAll xs vs s).set y w
  | [], vs, s, y, w, _ => by simp [setAll]
  | x :: xs, [], s, y, w, _ => by simp [setAll]
  | x :: xs, v :: vs, s, y, w, h => by
    simp only [List.mem_cons, not_or] at h
    simp only [setAll]
    rw [setAll_set xs vs s y w h.2, set_comm _ h.1]

theorem setAll_comm : ∀ (xs : List Nat) (vs : List V) (ys : List Nat) (ws : List V) (s : St V W),
    (∀ x ∈ xs, x ∉ ys) → setAll xs vs (setAll ys ws s) = setAll ys ws (setAll xs vs s)
  | [], vs, ys, ws, s, _ => by simp [setAll]
  | x :: xs, [], ys, ws, s, _ => by simp [setAll]
  | x :: xs, v :: vs, ys, ws, s, h => by
    simp only [setAll]
    rw [setAll_comm xs vs ys ws s (fun y hy => h y (by simp [hy])),
      setAll_set ys ws _ x v (h x (by simp))]

theorem setAll_append : ∀ (xs : List Nat) (vs : List V) (ys : List Nat) (ws : List V) (s : St V W),
    xs.length = vs.length → setAll (xs ++ ys) (vs ++ ws) s = setAll xs vs (setAll ys ws s)
  | [], [], ys, ws, s, _ => by simp [setAll]
  | [], _ :: _, _, _, _, h => by simp at h
  | _ :: _, [], _, _, _, h => by simp at h
  | x :: xs, v :: vs, ys, ws, s, h => by
    simp only [List.cons_append, setAll]
    rw [setAll_append xs vs ys ws s (by simpa using h)]

/-- Targets that are all variables. -/
def allVars (ts : List Target) : Bool :=
  ts.all fun | .var _ => true | _ => false

theorem allVars_eq : ∀ {ts : List Target}, allVars ts = true → ts = (targetVars ts).map Target.var
  | [], _ => rfl
  | .var x :: ts, h => by
    have := @allVars_eq ts (by simpa [allVars] using h)
    simp only [targetVars, List.filterMap_cons, List.map_cons] at *
    rw [← this]
  | .member _ _ :: ts, h => by simp [allVars] at h
  | .index _ _ :: ts, h => by simp [allVars] at h

theorem targetVars_map (xs : List Nat) : targetVars (xs.map Target.var) = xs := by
  induction xs with
  | nil => rfl
  | cons x xs ih => simp_all [targetVars]

theorem evTargets_vars (I : Interp V W) (xs : List Nat) (s : St V W) :
    evTargets I (xs.map Target.var) s = (xs.map Loc.var, s) := by
  induction xs with
  | nil => rfl
  | cons x xs ih => simp [evTargets, evTarget, ih]

theorem putAll_vars (I : Interp V W) : ∀ (xs : List Nat) (vs : List V) (s : St V W),
    putAll I (xs.map Loc.var) vs s = setAll xs vs s
  | [], vs, s => by simp [putAll, setAll]
  | x :: xs, [], s => by simp [putAll, setAll]
  | x :: xs, v :: vs, s => by simp [putAll, setAll, put, putAll_vars I xs vs s]

theorem exec_vars (I : Interp V W) (il : Bool) (xs : List Nat) (es : List E) (s : St V W) :
    exec I ⟨il, xs.map Target.var, es⟩ s =
      setAll xs (adjust I xs.length (evSources I es s).1) (evSources I es s).2 := by
  simp [exec, evTargets_vars, putAll_vars]

/-- All values but those beyond the first of the last expression. -/
def evFirsts (I : Interp V W) : List E → St V W → List V × St V W
  | [], s => ([], s)
  | e :: es, s =>
    let p := first I (ev I e s)
    let q := evFirsts I es p.2
    (p.1 :: q.1, q.2)

theorem evFirsts_length (I : Interp V W) : ∀ (es : List E) (s : St V W),
    (evFirsts I es s).1.length = es.length
  | [], s => rfl
  | e :: es, s => by simp [evFirsts, evFirsts_length I es]

/-- With something behind them, expressions contribute one value each. -/
theorem evSources_append (I : Interp V W) : ∀ (es fs : List E) (s : St V W), fs ≠ [] →
    evSources I (es ++ fs) s = ((evFirsts I es s).1 ++ (evSources I fs (evFirsts I es s).2).1,
      (evSources I fs (evFirsts I es s).2).2)
  | [], fs, s, _ => by simp [evFirsts]
  | e :: es, fs, s, h => by
    have ih := evSources_append I es fs (first I (ev I e s)).2 h
    obtain ⟨g, gs, hg⟩ : ∃ g gs, es ++ fs = g :: gs := by
      cases hh : es ++ fs with
      | nil => simp_all
      | cons g gs => exact ⟨g, gs, rfl⟩
    rw [List.cons_append, hg, evSources, ← hg, ih]
    · simp [evFirsts]
    · simp

/-- An expression that is neither a call nor `...` has one value. -/
theorem ev_single (I : Interp V W) {e : E} (h : isVararg e = false) (s : St V W) :
    (ev I e s).1 = [(ev I e s).1.headD I.nil] := by
  cases e with
  | logic a l r => simp only [ev]; split <;> simp [one]
  | _ => simp_all [isVararg, ev, one]

theorem evSources_firsts (I : Interp V W) : ∀ (es : List E) (s : St V W), lastVararg es = false →
    evSources I es s = evFirsts I es s
  | [], s, _ => rfl
  | [e], s, h => by
    have h' : isVararg e = false := by simpa [lastVararg] using h
    simp only [evSources, evFirsts, first]
    rw [Prod.ext_iff]
    exact ⟨ev_single I h' s, rfl⟩
  | e :: e' :: es, s, h => by
    have ih := evSources_firsts I (e' :: es) (first I (ev I e s)).2 (by
      simpa [lastVararg, List.getLast?_cons_cons] using h)
    rw [evSources, evFirsts, ih]
    simp

/-- The last of the values of the sources may be many, the others are those of `evFirsts`. -/
theorem evSources_take (I : Interp V W) : ∀ (es : List E) (s : St V W),
    (evSources I es s).2 = (evFirsts I es s).2 ∧
    adjust I es.length (evSources I es s).1 = (evFirsts I es s).1
  | [], s => by simp [evSources, evFirsts, adjust]
  | [e], s => by
    simp only [evSources, evFirsts, first, List.length_cons, List.length_nil]
    refine ⟨trivial, ?_⟩
    cases h : (ev I e s).1 <;> simp [adjust]
  | e :: e' :: es, s => by
    obtain ⟨h1, h2⟩ := evSources_take I (e' :: es) (first I (ev I e s)).2
    rw [evSources, evFirsts]
    · refine ⟨h1, ?_⟩
      rw [← h2]
      simp [adjust]
    · simp

theorem adjust_ge (I : Interp V W) {n : Nat} {vs : List V} (h : vs.length ≤ n) :
    adjust I n vs = vs ++ List.replicate (n - vs.length) I.nil := by
  simp [adjust, List.take_of_length_le h]

theorem adjust_append (I : Interp V W) (n : Nat) (vs ws : List V) :
    adjust I (vs.length + n) (vs ++ ws) = vs ++ adjust I n ws := by
  simp only [adjust, List.take_length_add_append, List.length_append, Nat.add_sub_add_left,
    List.append_assoc]

mutual
/-- A list of variables is avoided iff each of them is. -/
theorem contains_mem {xs ms : List Nat} {x : Nat} (hx : x ∈ xs) : ∀ (e : E),
    contains xs ms e = false → contains [x] ms e = false
  | .const _, _ | .varargs, _ => by simp [contains]
  | .var y, h => by
    simp only [contains, List.contains_eq_mem, decide_eq_false_iff_not, List.mem_singleton] at *
    rintro rfl; exact h hx
  | .group e, h => by simp only [contains] at *; exact contains_mem hx e h
  | .notE e, h => by simp only [contains] at *; exact contains_mem hx e h
  | .un _ e, h => by simp only [contains] at *; exact contains_mem hx e h
  | .logic _ l r, h => by
    simp only [contains, Bool.or_eq_false_iff] at *
    exact ⟨contains_mem hx l h.1, contains_mem hx r h.2⟩
  | .bin _ l r, h => by
    simp only [contains, Bool.or_eq_false_iff] at *
    exact ⟨contains_mem hx l h.1, contains_mem hx r h.2⟩
  | .index l r, h => by
    simp only [contains, Bool.or_eq_false_iff] at *
    exact ⟨contains_mem hx l h.1, contains_mem hx r h.2⟩
  | .member e n, h => by
    simp only [contains, Bool.or_eq_false_iff] at *
    exact ⟨contains_mem hx e h.1, h.2⟩
  | .call f args, h => by
    simp only [contains, Bool.or_eq_false_iff] at *
    exact ⟨contains_mem hx f h.1, containsAll_mem hx args h.2⟩
  | .bcall f args, h => by simp only [contains] at *; exact containsAll_mem hx args h
  | .table items, h => by simp only [contains] at *; exact containsAll_mem hx items h
  | .func _ uses members, h => by
    simp only [contains, Bool.or_eq_false_iff] at *
    refine ⟨?_, h.2⟩
    have h1 := h.1
    simp only [List.any_eq_false, List.contains_eq_mem, decide_eq_true_eq, List.mem_singleton] at *
    intro y hy hyx
    subst hyx
    exact h1 y hy hx
theorem containsAll_mem {xs ms : List Nat} {x : Nat} (hx : x ∈ xs) : ∀ (es : Es),
    containsAll xs ms es = false → containsAll [x] ms es = false
  | .nil, _ => by simp [containsAll]
  | .cons e es, h => by
    simp only [containsAll, Bool.or_eq_false_iff] at *
    exact ⟨contains_mem hx e h.1, containsAll_mem hx es h.2⟩
end

/-- What the accepting conditions say when all targets are variables. -/
theorem usesOk_vars {info : Nat → VarInfo} {cbs safe hasEnv} {il il' : Bool} {tp tn : List Nat}
    {sp sn : List E}
    (h : usesOk info cbs safe hasEnv ⟨il, tp.map Target.var, sp⟩ ⟨il', tn.map Target.var, sn⟩
      = true) {V W : Type} {I : Interp V W} (hl : Laws I info cbs il safe) :
    (∀ x ∈ tp, ∀ e ∈ sn, Blind (ev I e) x) ∧ ∀ x ∈ tp, x ∉ tn := by
  have hm : targetMembers (tp.map Target.var) = [] := by
    simp [targetMembers]
  simp only [usesOk, targetVars_map, hm, Bool.and_eq_true, List.all_eq_true, Bool.not_eq_true',
    Bool.or_eq_true] at h
  obtain ⟨hs, ht⟩ := h
  constructor
  · intro x hx e he
    obtain ⟨h1, h2⟩ := hs e he
    refine ev_blind (o := ⟨safe, cbs, !(List.map Target.var tp).any Target.isIndex,
      !(List.map Target.var tp).any fun t => t.isIndex || t.isMember, true, hasEnv⟩) hl e
      (contains_mem hx e h1) ?_
    rcases h2 with h2 | h2
    · left
      have := List.any_eq_false.mp h2 (.var x) (by simp [hx])
      simp only [needsTrivial, Bool.or_eq_true, Bool.and_eq_true, Bool.not_eq_true', not_or,
        not_and, Bool.not_eq_true] at this
      simp only [unreachable, this.1, Bool.not_false, Bool.true_and, Bool.or_eq_true,
        Bool.not_eq_true']
      cases il
      · right; exact this.2 rfl
      · left; rfl
    · exact .inr h2
  · intro x hx hx'
    have := (ht (.var x) (by simp [hx'])).1
    simp [Target.expr, contains] at this
    exact this hx

theorem exec_merge {info : Nat → VarInfo} {cbs safe hasEnv} {il il' : Bool} {tp tn : List Nat}
    {sp sn : List E} {V W : Type} {I : Interp V W} (hl : Laws I info cbs il safe)
    (h : merges info cbs safe hasEnv ⟨il, tp.map Target.var, sp⟩ ⟨il', tn.map Target.var, sn⟩
      = true)
    (hv : sn = [] → lastVararg sp = false) (s : St V W) :
    exec I (mergeStmt ⟨il, tp.map Target.var, sp⟩ ⟨il', tn.map Target.var, sn⟩) s =
      exec I ⟨il', tn.map Target.var, sn⟩ (exec I ⟨il, tp.map Target.var, sp⟩ s) := by
  simp only [merges, Bool.and_eq_true] at h
  obtain ⟨⟨hcount, huses⟩, _⟩ := h
  obtain ⟨hblind, hdisj⟩ := usesOk_vars huses hl
  have hm : mergeStmt ⟨il, tp.map Target.var, sp⟩ ⟨il', tn.map Target.var, sn⟩ =
      ⟨il, (tp.take sp.length ++ tn ++ tp.drop sp.length).map Target.var, sp ++ sn⟩ := by
    simp [mergeStmt, List.map_take, List.map_drop]
  rw [hm, exec_vars, exec_vars, exec_vars,
    blind_setAll tp _ _ (fun x hx => evSources_blind sn (fun e he => hblind x hx e he))]
  simp only [countsOk, List.length_map, Bool.and_eq_true, Bool.not_eq_true', decide_eq_false_iff_not,
    Nat.not_lt, Bool.and_eq_false_iff, Bool.or_eq_false_iff] at hcount
  obtain ⟨hle, hcount⟩ := hcount
  -- the values of the sources of the merged statement
  have hsrc : lastVararg sp = false ∨ sn ≠ [] := by
    by_cases h : sn = []
    · exact .inl (hv h)
    · exact .inr h
  have hmerged : evSources I (sp ++ sn) s =
      ((evFirsts I sp s).1 ++ (evSources I sn (evFirsts I sp s).2).1,
        (evSources I sn (evFirsts I sp s).2).2) := by
    by_cases h : sn = []
    · subst h
      rw [List.append_nil, evSources_firsts I sp s (hv rfl)]
      simp [evSources]
    · exact evSources_append I sp sn s h
  obtain ⟨hst, hval⟩ := evSources_take I sp s
  rw [hmerged, hst]
  have hlen := evFirsts_length I sp s
  generalize hp : (evFirsts I sp s).1 = vp at *
  generalize (evFirsts I sp s).2 = s1 at *
  generalize hq : evSources I sn s1 = q at *
  have htl : (tp.take sp.length ++ tn ++ tp.drop sp.length).length =
      vp.length + (tn.length + (tp.length - sp.length)) := by
    simp; omega
  simp only
  rw [htl, adjust_append]
  rcases Nat.lt_or_ge sp.length tp.length with hlt | hge
  · -- targets of `prev` without a source
    have hc : lastVararg sp = false ∧ lastVararg sn = false ∧ sn.length ≤ tn.length := by
      rcases hcount with h | h
      · omega
      · exact ⟨h.1.1, h.1.2, h.2⟩
    have hq1 : q.1.length = sn.length := by
      rw [← hq, evSources_firsts I sn s1 hc.2.1, evFirsts_length]
    have hv1 : adjust I tp.length (evSources I sp s).1 =
        vp ++ List.replicate (tp.length - sp.length) I.nil := by
      rw [evSources_firsts I sp s hc.1, hp, adjust_ge I (by omega), hlen]
    have hv2 : adjust I (tn.length + (tp.length - sp.length)) q.1 =
        adjust I tn.length q.1 ++ List.replicate (tp.length - sp.length) I.nil := by
      rw [adjust_ge I (by omega), adjust_ge I (by omega), List.append_assoc,
        List.replicate_append_replicate]
      congr 2
      omega
    have hl2 : (adjust I tn.length q.1).length = tn.length := by
      simp [adjust]; omega
    have hl1 : (tp.take sp.length).length = vp.length := by simp; omega
    rw [hv1, hv2, List.append_assoc, setAll_append _ _ _ _ _ hl1, setAll_append _ _ _ _ _ hl2.symm]
    conv => rhs; rw [← List.take_append_drop sp.length tp]
    rw [setAll_append _ _ _ _ _ hl1]
    rw [setAll_comm (tp.take sp.length) vp tn (adjust I tn.length q.1) _
      (fun x hx => hdisj x (List.mem_of_mem_take hx)), List.take_append_drop]
  · have he : sp.length = tp.length := by omega
    have hl1 : (tp.take sp.length).length = vp.length := by simp; omega
    have hz : tp.length - sp.length = 0 := by omega
    rw [hz, Nat.add_zero, ← he, hval, List.append_assoc, setAll_append _ _ _ _ _ hl1]
    have h0 : tp.drop sp.length = [] := by simp [he]
    have h1 : tp.take sp.length = tp := by simp [he]
    rw [h0, h1, List.append_nil]
    exact setAll_comm tp vp tn _ _ hdisj

/-- The merged declaration gives every name the meaning it has after the two declarations. -/
theorem lookup_merge {info : Nat → VarInfo} {tp tn : List Nat} {k : Nat}
    (h : ((tp.drop k).map fun x => (info x).name).any
      ((tn.map fun x => (info x).name).contains) = false) (name : Nat) :
    lookup info (tp.take k ++ tn ++ tp.drop k) name = lookup info (tp ++ tn) name := by
  have hnone : (tn.reverse.find? fun x => (info x).name == name) = none ∨
      ((tp.drop k).reverse.find? fun x => (info x).name == name) = none := by
    by_cases ha : (tn.reverse.find? fun x => (info x).name == name) = none
    · exact .inl ha
    · right
      rw [List.find?_eq_none]
      intro x hx hxn
      simp only [List.find?_eq_none, Classical.not_forall] at ha
      obtain ⟨y, hy, hyn⟩ := ha
      simp only [List.any_eq_false, List.mem_map, List.contains_eq_mem, decide_eq_true_eq] at h
      refine h _ ⟨x, by simpa using hx, rfl⟩ ⟨y, by simpa using hy, ?_⟩
      simp at hyn hxn
      rw [hyn, hxn]
  unfold lookup
  conv => rhs; rw [← List.take_append_drop k tp]
  simp only [List.reverse_append, List.append_assoc, List.find?_append]
  rcases hnone with h | h <;> simp [h]

end Verif.MergeAsg
