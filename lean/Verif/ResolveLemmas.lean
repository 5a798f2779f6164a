import Verif.Resolve
import Verif.Spec.LuaScope
/-
Lemmas about name resolution, for C62.
-/
namespace Verif.Resolve
open Syntax LuaScope

/-- The visible declarations. -/
def flat (fs : List Frame) : Env := fs.flatMap fun f => f.vars.map fun v => (v.name, v.id)

/-- A node as an occurrence in the sense of the specification. -/
def occOf (n : Node) : Occ :=
  match n.ref with
  | .bind v => .bind v.id
  | .loc v => .loc v.id
  | .glob env => .glob n.name (env.map (·.id))
  | .mem f => .key n.name f
  | .label _ => .label n.name
  | .goto_ => .goto_ n.name

theorem run_append (s : State) (a b : List Ev) :
    run s (a ++ b) = ((run (run s a).1 b).1, (run s a).2 ++ (run (run s a).1 b).2) := by
  induction a generalizing s with
  | nil => simp [run]
  | cons e es ih => simp only [List.cons_append, run, ih, List.append_assoc]

theorem find_vars (x : Nm) (vs : List RVar) :
    (vs.find? (fun v => decide (v.name = x))).map (·.id) = ((vs.map fun v => (v.name, v.id)).find? fun p => p.1 == x).map (·.2) := by
  induction vs with
  | nil => rfl
  | cons v vs ih =>
    simp only [List.find?_cons, List.map_cons]
    by_cases h : v.name = x
    · simp [h]
    · rw [show decide (v.name = x) = false by simpa using h, show ((v.name : Nm) == x) = false by simpa using h]
      exact ih

theorem find_flat (x : Nm) (fs : List Frame) : (findIn x fs).map (·.id) = look (flat fs) x := by
  induction fs with
  | nil => rfl
  | cons f fs ih =>
    have h := find_vars x f.vars
    simp only [findIn, flat, List.flatMap_cons, look, List.find?_append]
    simp only [look, flat] at ih
    cases hf : f.vars.find? (fun v => decide (v.name = x)) with
    | some v =>
      rw [hf] at h
      cases hg : (f.vars.map fun v => (v.name, v.id)).find? fun p => p.1 == x with
      | none => rw [hg] at h; simp at h
      | some p => rw [hg] at h; simp at h ⊢; exact h
    | none =>
      rw [hf] at h
      cases hg : (f.vars.map fun v => (v.name, v.id)).find? fun p => p.1 == x with
      | none => simpa using ih
      | some p => rw [hg] at h; simp at h

theorem nm_env : nm "_ENV" = envName := rfl

theorem occ_use (s : State) (x : Nm) (imp : Bool) : occOf (useNode s x imp) = occ (flat s.cur) x := by
  have h := find_flat x s.cur
  have he := find_flat envName s.cur
  unfold useNode occ
  rw [nm_env, ← h, ← he]
  cases findIn x s.cur <;> rfl

/-- Parsing an expression: the scopes stay, `k` locals are declared, and the names are resolved as `o` says. -/
def RunE (es : List Ev) (k : Nat) (o : Env → Nat → List Occ) : Prop :=
  ∀ s, (run s es).1.cur = s.cur ∧ (run s es).1.pend = s.pend ∧ (run s es).1.saved = s.saved ∧ (run s es).1.nvar = s.nvar + k ∧
    (run s es).2.map occOf = o (flat s.cur) s.nvar

/-- Parsing statements: what is visible changes as `f` says. -/
def RunS (es : List Ev) (k : Nat) (f : Env → Nat → Env) (o : Env → Nat → List Occ) : Prop :=
  ∀ s, flat (run s es).1.cur = f (flat s.cur) s.nvar ∧ (run s es).1.pend = s.pend ∧ (run s es).1.saved = s.saved ∧
    (run s es).1.nvar = s.nvar + k ∧ (run s es).2.map occOf = o (flat s.cur) s.nvar

theorem RunE.toS {es : List Ev} {k : Nat} {o : Env → Nat → List Occ} (h : RunE es k o) : RunS es k (fun e _ => e) o := fun s =>
  ⟨by rw [(h s).1], (h s).2⟩

theorem RunE.nil : RunE [] 0 (fun _ _ => []) := fun s => by simp [run]

theorem RunE.append {a b : List Ev} {k k' : Nat} {o o' : Env → Nat → List Occ} (h : RunE a k o) (h' : RunE b k' o') :
    RunE (a ++ b) (k + k') (fun e n => o e n ++ o' e (n + k)) := by
  intro s
  obtain ⟨h1, h2, h3, h4, h5⟩ := h s
  obtain ⟨g1, g2, g3, g4, g5⟩ := h' (run s a).1
  rw [run_append]
  refine ⟨by rw [g1, h1], by rw [g2, h2], by rw [g3, h3], by rw [g4, h4]; omega, ?_⟩
  rw [List.map_append, h5, g5, h1, h4]

theorem RunS.append {a b : List Ev} {k k' : Nat} {f f' : Env → Nat → Env} {o o' : Env → Nat → List Occ} (h : RunS a k f o)
    (h' : RunS b k' f' o') : RunS (a ++ b) (k + k') (fun e n => f' (f e n) (n + k)) (fun e n => o e n ++ o' (f e n) (n + k)) := by
  intro s
  obtain ⟨h1, h2, h3, h4, h5⟩ := h s
  obtain ⟨g1, g2, g3, g4, g5⟩ := h' (run s a).1
  rw [run_append]
  refine ⟨by rw [g1, h1, h4], by rw [g2, h2], by rw [g3, h3], by rw [g4, h4]; omega, ?_⟩
  rw [List.map_append, h5, g5, h1, h4]

/-- Blocks. -/
theorem RunS.block {b : List Ev} {k : Nat} {f : Env → Nat → Env} {o : Env → Nat → List Occ} (fn : Bool) (h : RunS b k f o) :
    RunE (.enter fn :: (b ++ [.leave])) k o := by
  intro s
  obtain ⟨h1, h2, h3, h4, h5⟩ := h (step s (.enter fn)).1
  have hl : ∀ t : State, t.saved = (s.cur, s.labs) :: s.saved → step t .leave = ({ t with cur := s.cur, labs := s.labs, saved := s.saved }, []) := by
    intro t ht; simp only [step, ht]
  simp only [run, run_append, List.append_nil, hl _ h3]
  refine ⟨trivial, h2, trivial, h4, ?_⟩
  simpa [step] using h5

theorem RunE.use (x : Nm) : RunE [.use x] 0 (fun e _ => [occ e x]) := by
  intro s
  simp only [run, step, List.append_nil]
  exact ⟨trivial, trivial, trivial, rfl, by rw [List.map_singleton, occ_use]⟩

theorem RunE.print : RunE [.print] 0 (fun e _ => [occ e (nm "print")]) := by
  intro s
  simp only [run, step, List.append_nil]
  exact ⟨trivial, trivial, trivial, rfl, by rw [List.map_singleton, occ_use]; rfl⟩

theorem RunE.member (x : Nm) (f : Bool) : RunE [.member x f] 0 (fun _ _ => [.key x f]) := by
  intro s
  simp only [run, step, List.append_nil]
  exact ⟨trivial, trivial, trivial, rfl, rfl⟩

theorem RunE.label (x : Nm) : RunE [.label x] 0 (fun _ _ => [.label x]) := by
  intro s
  simp only [run, step, List.append_nil]
  exact ⟨trivial, trivial, trivial, rfl, rfl⟩

theorem RunE.goto_ (x : Nm) : RunE [.goto_ x] 0 (fun _ _ => [.goto_ x]) := by
  intro s
  simp only [run, step, List.append_nil]
  exact ⟨trivial, trivial, trivial, rfl, rfl⟩

theorem run_tgts (xs : List Nm) : ∀ (s : State) (f : Frame) (fs : List Frame) (p : List (Frame × List Frame)), s.pend = (f, fs) :: p →
    ∃ g : Frame, (run s (xs.map .tgt)).1.pend = (g, fs) :: p ∧ (run s (xs.map .tgt)).1.cur = s.cur ∧ (run s (xs.map .tgt)).1.saved = s.saved ∧
      (run s (xs.map .tgt)).1.nvar = s.nvar + xs.length ∧ (run s (xs.map .tgt)).2.map occOf = binds s.nvar xs ∧
      flat (g :: fs) = bind (flat (f :: fs)) s.nvar xs := by
  induction xs with
  | nil => intro s f fs p h; exact ⟨f, by simp [run, h, binds, LuaScope.bind]⟩
  | cons x xs ih =>
    intro s f fs p h
    have hs : step s (.tgt x) = ({ s with pend := (⟨f.id, ⟨.loc, x, s.nvar, f.id⟩ :: f.vars⟩, fs) :: p, nvar := s.nvar + 1 },
        [⟨x, false, .bind ⟨.loc, x, s.nvar, f.id⟩, f.id :: ids fs⟩]) := by
      simp only [step, h]
    obtain ⟨g, g1, g2, g3, g4, g5, g6⟩ := ih (step s (.tgt x)).1 ⟨f.id, ⟨.loc, x, s.nvar, f.id⟩ :: f.vars⟩ fs p (by rw [hs])
    refine ⟨g, ?_⟩
    simp only [List.map_cons, run] at g1 g2 g3 g4 g5 ⊢
    rw [hs] at g1 g2 g3 g4 g5 g6 ⊢
    refine ⟨g1, g2, g3, by rw [g4, List.length_cons]; simp only; omega, ?_, ?_⟩
    · simp only [g5, List.map_cons, occOf, binds, List.cons_append, List.nil_append]
    · rw [g6]
      simp only [LuaScope.bind, flat, List.flatMap_cons, List.map_cons, List.cons_append]

/-- The names a new scope starts with. -/
def selfs (self : Bool) : List Nm := if self then [nm "self"] else []

/-- A new scope and its targets. -/
theorem run_targets (self : Bool) (xs : List Nm) (s : State) :
    ∃ g : Frame, (run s (.newScope self :: xs.map .tgt)).1.pend = (g, s.cur) :: s.pend ∧ (run s (.newScope self :: xs.map .tgt)).1.cur = s.cur ∧
      (run s (.newScope self :: xs.map .tgt)).1.saved = s.saved ∧
      (run s (.newScope self :: xs.map .tgt)).1.nvar = s.nvar + (selfs self ++ xs).length ∧
      (run s (.newScope self :: xs.map .tgt)).2.map occOf = binds s.nvar (selfs self ++ xs) ∧
      flat (g :: s.cur) = bind (flat s.cur) s.nvar (selfs self ++ xs) := by
  cases self
  · obtain ⟨g, g1, g2, g3, g4, g5, g6⟩ := run_tgts xs (step s (.newScope false)).1 ⟨s.nscope, []⟩ s.cur s.pend rfl
    refine ⟨g, ?_⟩
    simp only [run]
    refine ⟨g1, g2, g3, g4, by simpa [step, selfs] using g5, by rw [g6]; rfl⟩
  · obtain ⟨g, g1, g2, g3, g4, g5, g6⟩ := run_tgts xs (step s (.newScope true)).1 ⟨s.nscope, [⟨.loc, selfName, s.nvar, s.nscope⟩]⟩ s.cur s.pend rfl
    refine ⟨g, ?_⟩
    simp only [run]
    refine ⟨g1, g2, g3, by rw [g4]; simp [step, selfs]; omega, ?_, by rw [g6]; rfl⟩
    simp only [List.map_append, g5]
    rfl

/-- `local` statements. -/
theorem RunS.local_ {src : List Ev} {k : Nat} {o : Env → Nat → List Occ} (xs : List Nm) (h : RunE src k o) :
    RunS (.newScope false :: xs.map .tgt ++ (src ++ [.add])) (xs.length + k) (fun e n => bind e n xs)
      (fun e n => binds n xs ++ o e (n + xs.length)) := by
  intro s
  obtain ⟨g, g1, g2, g3, g4, g5, g6⟩ := run_targets false xs s
  obtain ⟨h1, h2, h3, h4, h5⟩ := h (run s (.newScope false :: xs.map .tgt)).1
  simp only [run_append]
  generalize run s (.newScope false :: xs.map .tgt) = t at *
  rw [g1] at h2
  have ha : step (run t.1 src).1 .add = ({ (run t.1 src).1 with cur := g :: s.cur, pend := s.pend }, []) := by simp only [step, h2]
  simp only [run, ha, List.append_nil, List.map_append]
  refine ⟨g6, trivial, by rw [h3, g3], by rw [h4, g4]; simp [selfs]; omega, ?_⟩
  rw [g5, h5, g2, g4]
  simp [selfs]

/-- Loops and functions: the declared variables are visible in the body. -/
theorem RunE.scope {src body : List Ev} {k k' : Nat} {o o' : Env → Nat → List Occ} (self : Bool) (xs : List Nm) (h : RunE src k o)
    (h' : RunE body k' o') :
    RunE (.newScope self :: xs.map .tgt ++ (src ++ .add :: (body ++ [.close]))) ((selfs self ++ xs).length + k + k')
      (fun e n => binds n (selfs self ++ xs) ++ (o e (n + (selfs self ++ xs).length) ++
        o' (bind e n (selfs self ++ xs)) (n + (selfs self ++ xs).length + k))) := by
  intro s
  obtain ⟨g, g1, g2, g3, g4, g5, g6⟩ := run_targets self xs s
  obtain ⟨h1, h2, h3, h4, h5⟩ := h (run s (.newScope self :: xs.map .tgt)).1
  rw [run_append]
  generalize run s (.newScope self :: xs.map .tgt) = t at *
  rw [g1] at h2
  have ha : step (run t.1 src).1 .add = ({ (run t.1 src).1 with cur := g :: s.cur, pend := s.pend }, []) := by simp only [step, h2]
  simp only [run_append, run, ha, List.append_nil]
  generalize hu : ({ (run t.1 src).1 with cur := g :: s.cur, pend := s.pend } : State) = u
  have ucur : u.cur = g :: s.cur := by rw [← hu]
  have unv : u.nvar = s.nvar + (selfs self ++ xs).length + k := by rw [← hu]; simp only; rw [h4, g4]
  obtain ⟨i1, i2, i3, i4, i5⟩ := h' u
  have hc : ∀ t : State, step t .close = ({ t with cur := t.cur.tail }, []) := fun t => rfl
  rw [hc]
  refine ⟨by simp only; rw [i1, ucur]; rfl, by simp only; rw [i2, ← hu], by simp only; rw [i3, ← hu]; simp only; rw [h3, g3],
    by simp only; rw [i4, unv]; omega, ?_⟩
  simp only [List.nil_append, List.append_nil, List.map_append]
  rw [g5, h5, i5, g2, g4, ucur, unv, g6]

theorem evPs_eq (ps : List Param) : evPs ps = (named ps).map .tgt := by
  induction ps with
  | nil => rfl
  | cons p ps ih => cases p <;> simp_all [evPs, named]

/-- Function bodies. -/
theorem RunE.body {b : List Ev} {k : Nat} {f : Env → Nat → Env} {o : Env → Nat → List Occ} (self : Bool) (ps : List Param) (h : RunS b k f o) :
    RunE (evHead self ps ++ (b ++ evFoot)) ((selfs self ++ named ps).length + k)
      (fun e n => binds n (selfs self ++ named ps) ++ o (bind e n (selfs self ++ named ps)) (n + (selfs self ++ named ps).length)) := by
  have hx := RunE.scope self (named ps) RunE.nil (h.block true)
  have e1 : evHead self ps ++ (b ++ evFoot) = .newScope self :: (named ps).map .tgt ++
      ([] ++ .add :: (.enter true :: (b ++ [.leave]) ++ [.close])) := by
    simp [evHead, evFoot, evPs_eq]
  rw [e1]
  simpa using hx

theorem keys_eq (f : Bool) (xs : List Nm) : (xs.zipIdx.map fun p => Occ.key p.1 (p.2 == 0 && f)) = keys f xs := by
  cases xs with
  | nil => rfl
  | cons x xs =>
    simp only [List.zipIdx_cons, List.map_cons, keys, beq_self_eq_true, Bool.true_and, Nat.zero_add, List.cons.injEq, true_and]
    have : ∀ (l : List Nm) k, 0 < k → (l.zipIdx k).map (fun p => Occ.key p.1 (p.2 == 0 && f)) = l.map (Occ.key · false) := by
      intro l
      induction l with
      | nil => intros; rfl
      | cons y l ih =>
        intro k hk
        simp only [List.zipIdx_cons, List.map_cons]
        rw [ih (k + 1) (by omega), show (k == 0) = false by simp; omega]
        rfl
    exact this xs 1 (by omega)

/-- Function targets. -/
theorem RunE.fnName (f : FnName) : RunE (evFn f) 0 (fun e _ => occ e f.base :: keys (f.base == nm "_ENV") (f.keys ++ f.meth.toList)) := by
  have hm : ∀ (l : List (Nm × Nat)) (g : Nm × Nat → Bool), RunE (l.map fun p => Ev.member p.1 (g p)) 0 (fun _ _ => l.map fun p => Occ.key p.1 (g p)) := by
    intro l g
    induction l with
    | nil => exact RunE.nil
    | cons p l ih => exact (RunE.member p.1 (g p)).append ih
  have h := (RunE.use f.base).append (hm ((f.keys ++ f.meth.toList).zipIdx) (fun p => p.2 == 0 && f.base == envName))
  rw [keys_eq] at h
  exact h

theorem isEnv_eq (e : Ex) : LuaScope.isEnv e = Resolve.isEnv e := by cases e <;> rfl

theorem envs_eq : ∀ ts, envs ts = envTargets ts
  | .nil => rfl
  | .cons t ts => by rw [envs, envTargets, envs_eq ts, isEnv_eq]

theorem RunE.congr {a b : List Ev} {k k' : Nat} {o o' : Env → Nat → List Occ} (h : RunE a k o) (he : b = a) (hk : k' = k)
    (ho : ∀ e n, o' e n = o e n) : RunE b k' o' := by
  subst he hk
  have : o' = o := by funext e n; exact ho e n
  rw [this]; exact h

theorem RunS.congr {a b : List Ev} {k k' : Nat} {f f' : Env → Nat → Env} {o o' : Env → Nat → List Occ} (h : RunS a k f o) (he : b = a) (hk : k' = k)
    (hf : ∀ e n, f' e n = f e n) (ho : ∀ e n, o' e n = o e n) : RunS b k' f' o' := by
  subst he hk
  have h1 : o' = o := by funext e n; exact ho e n
  have h2 : f' = f := by funext e n; exact hf e n
  rw [h1, h2]; exact h

/-! ### Statements other than `local` -/

theorem stE {s : St} {k : Nat} {o : Env → Nat → List Occ} (h : RunE (evS s) k o) (hk : nS s = k) (ha : ∀ e n, after e n s = e)
    (ho : ∀ e n, oS e n s = o e n) : RunS (evS s) (nS s) (fun e n => after e n s) (fun e n => oS e n s) :=
  h.toS.congr rfl hk (fun e n => ha e n) (fun e n => ho e n)

abbrev PE (e : Ex) : Prop := RunE (evE e) (nE e) (fun v n => oE v n e)
abbrev PEs (e : Exs) : Prop := RunE (evEs e) (nEs e) (fun v n => oEs v n e)
abbrev PSrc (e : Exs) : Prop := ∀ fs, RunE (evSrc fs e) (nEs e) (fun v n => oSrc v n fs e)
abbrev PIts (e : Its) : Prop := ∀ f, RunE (evIts f e) (nIts e) (fun v n => oIts v n f e)
abbrev PS (s : St) : Prop := RunS (evS s) (nS s) (fun v n => after v n s) (fun v n => oS v n s)
abbrev PI (s : If) : Prop := RunE (evI s) (nI s) (fun v n => oI v n s)
abbrev PT (s : Tail) : Prop := RunE (evT s) (nT s) (fun v n => oT v n s)
abbrev PB (b : Block) : Prop := RunS (evB b) (nB b) (fun v n => atEnd v n b) (fun v n => oB v n b)

theorem pe_func (ps : List Param) {b : Block} (h : PB b) : PE (.func ps b) :=
  (RunE.body false ps h).congr (by simp only [evE]) (by simp [nE, selfs]) (fun e n => by simp [oE, selfs])

theorem pe_method {b : Ex} {x : Nm} {sh : Bool} {as : Exs} (hb : PE b) (ha : PEs as) : PE (.method b x sh as) :=
  (hb.append ((RunE.member x (isEnv b)).append ha)).congr (by simp [evE]) (by simp [nE]) (fun e n => by simp [oE, isEnv_eq])

theorem pe_member {b : Ex} {x : Nm} (hb : PE b) : PE (.member b x) :=
  (hb.append (RunE.member x (isEnv b))).congr (by simp [evE]) (by simp [nE]) (fun e n => by simp [oE, isEnv_eq])

theorem psrc_table {its : Its} {es : Exs} (h : PIts its) (hs : PSrc es) : PSrc (.cons (.table its) es) := fun fs =>
  ((h (fs.headD false)).append (hs fs.tail)).congr (by rw [evSrc]) (by simp [nEs, nE]) (fun e n => by simp [oSrc])

theorem psrc_cons {e : Ex} {es : Exs} (h : PE e) (hs : PSrc es) (ht : ∀ its, e ≠ .table its) : PSrc (.cons e es) := fun fs =>
  (h.append (hs fs.tail)).congr (by rw [evSrc]; exact ht) (by simp [nEs]) (fun v n => by rw [oSrc]; exact ht)

theorem ps_repeat {b : Block} {c : Ex} (hb : PB b) (hc : PE c) : PS (.repeat_ b c) := by
  refine stE (((RunS.append hb hc.toS).block false).congr ?_ rfl fun _ _ => rfl) (by simp [nS]) (fun _ _ => rfl) (fun v n => by simp [oS])
  simp [evS]

theorem ps_fornum {x : Nm} {a b : Ex} {c : Exs} {d : Block} (ha : PE a) (hb : PE b) (hc : PEs c) (hd : PB d) : PS (.fornum x a b c d) := by
  refine stE ((RunE.scope false [x] (ha.append (hb.append hc)) (hd.block false)).congr ?_ rfl fun _ _ => rfl) ?_ (fun _ _ => rfl) (fun v n => ?_)
  · simp [evS]
  · simp [nS, selfs]; omega
  · simp [oS, binds, selfs, Nat.add_assoc]

theorem ps_forin {xs : List Nm} {es : Exs} {d : Block} (he : PEs es) (hd : PB d) : PS (.forin xs es d) := by
  refine stE ((RunE.scope false xs he (hd.block false)).congr ?_ rfl fun _ _ => rfl) ?_ (fun _ _ => rfl) (fun v n => ?_)
  · simp [evS]
  · simp [nS, selfs]
  · simp [oS, selfs]

theorem ps_local {xs : List (Nm × Option Nm)} {es : Exs} (he : PSrc es) : PS (.local_ xs es) := by
  refine (RunS.local_ (xs.map (·.1)) (he (xs.map (·.1 == envName)))).congr ?_ ?_ (fun v n => ?_) (fun v n => ?_)
  · simp [evS]
  · simp [nS]
  · simp [after]
  · simp [oS, nm_env]

theorem ps_localfn {x : Nm} {ps : List Param} {b : Block} (hb : PB b) : PS (.localfn x ps b) := by
  refine ((RunS.local_ [x] RunE.nil).append (RunE.body false ps hb).toS).congr ?_ ?_ (fun v n => ?_) (fun v n => ?_)
  · simp [evS]
  · simp [nS, selfs]; omega
  · simp [after]
  · simp [oS, binds, selfs]

theorem ps_func {f : FnName} {ps : List Param} {b : Block} (hb : PB b) : PS (.func f ps b) := by
  have hm : selfs f.meth.isSome ++ named ps = methodParams f ps := by
    cases h : f.meth <;> simp [methodParams, selfs, h]
  have h := RunE.body f.meth.isSome ps hb
  rw [hm] at h
  refine stE (((RunE.fnName f).append h).congr ?_ rfl fun _ _ => rfl) ?_ (fun _ _ => rfl) (fun v n => ?_)
  · simp [evS]
  · simp [nS]
  · simp [oS]

mutual
theorem pE : ∀ e, PE e
  | .var x => (RunE.use x).congr rfl rfl fun _ _ => rfl
  | .num _ => RunE.nil.congr rfl rfl fun _ _ => rfl
  | .str _ => RunE.nil.congr rfl rfl fun _ _ => rfl
  | .cst _ => RunE.nil.congr rfl rfl fun _ _ => rfl
  | .vararg => RunE.nil.congr rfl rfl fun _ _ => rfl
  | .func ps b => pe_func ps (pB b)
  | .group e => (pE e).congr (by simp only [evE]) (by simp only [nE]) fun _ _ => by simp only [oE]
  | .un _ e => (pE e).congr (by simp only [evE]) (by simp only [nE]) fun _ _ => by simp only [oE]
  | .bin _ l r => ((pE l).append (pE r)).congr (by simp only [evE]) (by simp only [nE]) fun _ _ => by simp only [oE]
  | .member b _ => pe_member (pE b)
  | .index b k => ((pE b).append (pE k)).congr (by simp only [evE]) (by simp only [nE]) fun _ _ => by simp only [oE]
  | .call b _ as => ((pE b).append (pEs as)).congr (by simp only [evE]) (by simp only [nE]) fun _ _ => by simp only [oE]
  | .method b _ _ as => pe_method (pE b) (pEs as)
  | .table its => (pIts its false).congr (by simp only [evE]) (by simp only [nE]) fun _ _ => by simp only [oE]
theorem pEs : ∀ e, PEs e
  | .nil => RunE.nil.congr rfl rfl fun _ _ => rfl
  | .cons e es => ((pE e).append (pEs es)).congr (by simp only [evEs]) (by simp only [nEs]) fun _ _ => by simp only [oEs]
theorem pSrc : ∀ e, PSrc e
  | .nil => fun fs => RunE.nil.congr (by simp only [evSrc]) rfl fun _ _ => by simp only [oSrc]
  | .cons (.table its) es => psrc_table (pIts its) (pSrc es)
  | .cons (.var x) es => psrc_cons (pE (.var x)) (pSrc es) (by simp)
  | .cons (.num x) es => psrc_cons (pE (.num x)) (pSrc es) (by simp)
  | .cons (.str x) es => psrc_cons (pE (.str x)) (pSrc es) (by simp)
  | .cons (.cst x) es => psrc_cons (pE (.cst x)) (pSrc es) (by simp)
  | .cons .vararg es => psrc_cons (pE .vararg) (pSrc es) (by simp)
  | .cons (.func x y) es => psrc_cons (pE (.func x y)) (pSrc es) (by simp)
  | .cons (.group x) es => psrc_cons (pE (.group x)) (pSrc es) (by simp)
  | .cons (.un x y) es => psrc_cons (pE (.un x y)) (pSrc es) (by simp)
  | .cons (.bin x y z) es => psrc_cons (pE (.bin x y z)) (pSrc es) (by simp)
  | .cons (.member x y) es => psrc_cons (pE (.member x y)) (pSrc es) (by simp)
  | .cons (.index x y) es => psrc_cons (pE (.index x y)) (pSrc es) (by simp)
  | .cons (.call x y z) es => psrc_cons (pE (.call x y z)) (pSrc es) (by simp)
  | .cons (.method x y z w) es => psrc_cons (pE (.method x y z w)) (pSrc es) (by simp)
theorem pIts : ∀ e, PIts e
  | .nil => fun _ => RunE.nil.congr (by simp only [evIts]) rfl fun _ _ => by simp only [oIts]
  | .pos e its => fun f => ((pE e).append (pIts its f)).congr (by simp only [evIts]) (by simp only [nIts]) fun _ _ => by simp only [oIts]
  | .named x e its => fun f => ((RunE.member x f).append ((pE e).append (pIts its f))).congr (by simp [evIts]) (by simp [nIts])
      fun _ _ => by simp [oIts]
  | .keyed k e its => fun f => ((pE k).append ((pE e).append (pIts its f))).congr (by simp only [evIts])
      (by simp only [nIts, Nat.add_assoc]) fun _ _ => by simp only [oIts]
theorem pS : ∀ s, PS s
  | .do_ b => stE (((pB b).block false).congr (by simp only [evS]) rfl fun _ _ => rfl) (by simp only [nS]) (fun _ _ => rfl) fun _ _ => by simp only [oS]
  | .if_ i => stE ((pI i).congr (by simp only [evS]) rfl fun _ _ => rfl) (by simp only [nS]) (fun _ _ => rfl) fun _ _ => by simp only [oS]
  | .while_ c b => stE (((pE c).append ((pB b).block false)).congr (by simp only [evS]) rfl fun _ _ => rfl) (by simp only [nS]) (fun _ _ => rfl)
      fun _ _ => by simp only [oS]
  | .whileShort c b _ => stE (((pE c).append ((pB b).block false)).congr (by simp only [evS]) rfl fun _ _ => rfl) (by simp only [nS]) (fun _ _ => rfl)
      fun _ _ => by simp only [oS]
  | .repeat_ b c => ps_repeat (pB b) (pE c)
  | .fornum _ a b c d => ps_fornum (pE a) (pE b) (pEs c) (pB d)
  | .forin _ es d => ps_forin (pEs es) (pB d)
  | .break_ => stE (RunE.nil.congr rfl rfl fun _ _ => rfl) rfl (fun _ _ => rfl) fun _ _ => rfl
  | .return_ es => stE ((pEs es).congr (by simp only [evS]) rfl fun _ _ => rfl) (by simp only [nS]) (fun _ _ => rfl) fun _ _ => by simp only [oS]
  | .local_ _ es => ps_local (pSrc es)
  | .localfn _ _ b => ps_localfn (pB b)
  | .goto_ x => stE ((RunE.goto_ x).congr rfl rfl fun _ _ => rfl) rfl (fun _ _ => rfl) fun _ _ => rfl
  | .label x => stE ((RunE.label x).congr rfl rfl fun _ _ => rfl) rfl (fun _ _ => rfl) fun _ _ => rfl
  | .func _ _ b => ps_func (pB b)
  | .assign ts es => stE (((pEs ts).append (pSrc es (envTargets ts))).congr (by simp only [evS]) rfl fun _ _ => rfl) (by simp only [nS])
      (fun _ _ => rfl) fun _ _ => by simp only [oS, envs_eq]
  | .opassign _ t e => stE (((pE t).append (pE e)).congr (by simp only [evS]) rfl fun _ _ => rfl) (by simp only [nS]) (fun _ _ => rfl)
      fun _ _ => by simp only [oS]
  | .call e => stE ((pE e).congr (by simp only [evS]) rfl fun _ _ => rfl) (by simp only [nS]) (fun _ _ => rfl) fun _ _ => by simp only [oS]
  | .print es => stE (((pEs es).append (RunE.print)).congr (by simp only [evS]) rfl fun _ _ => rfl) (by simp only [nS, Nat.add_zero])
      (fun _ _ => rfl) fun _ _ => by simp only [oS]
theorem pI : ∀ i, PI i
  | .long c b t => ((pE c).append (((pB b).block false).append (pT t))).congr (by simp [evI]) (by simp [nI, Nat.add_assoc]) fun _ _ => by simp [oI]
  | .short c b _ => ((pE c).append ((pB b).block false)).congr (by simp only [evI]) (by simp only [nI]) fun _ _ => by simp only [oI]
  | .shortElse c b d _ => ((pE c).append (((pB b).block false).append ((pB d).block false))).congr (by simp [evI]) (by simp [nI, Nat.add_assoc])
      fun _ _ => by simp [oI]
theorem pT : ∀ t, PT t
  | .end_ => RunE.nil.congr rfl rfl fun _ _ => rfl
  | .else_ b => ((pB b).block false).congr (by simp only [evT]) (by simp only [nT]) fun _ _ => by simp only [oT]
  | .elseif_ i => (pI i).congr (by simp only [evT]) (by simp only [nT]) fun _ _ => by simp only [oT]
theorem pB : ∀ b, PB b
  | .nil => RunE.nil.toS.congr rfl rfl (fun _ _ => rfl) fun _ _ => rfl
  | .semi b => (pB b).congr (by simp only [evB]) (by simp only [nB]) (fun _ _ => by simp only [atEnd]) (fun _ _ => by simp only [oB])
  | .cons s b => ((pS s).append (pB b)).congr (by simp only [evB]) (by simp only [nB]) (fun _ _ => by simp only [atEnd])
      fun _ _ => by simp only [oB]
end

theorem flat_root (lb : List Nm) : flat [⟨0, rootVars lb⟩] = bind [(nm "_ENV", 0)] 1 lb := by
  have h : ∀ (l : List Nm) (env : Env) (k : Nat), bind env k l = (l.zipIdx k).reverse ++ env := by
    intro l
    induction l with
    | nil => intro env k; rfl
    | cons x l ih => intro env k; simp [LuaScope.bind, ih]
  rw [h]
  simp [flat, rootVars, nm_env, Function.comp_def]

end Verif.Resolve
