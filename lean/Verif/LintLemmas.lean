import Verif.Lint
import Verif.ResolveNodes
import Verif.ResolveLemmas
/-
Lemmas about the linter, for C70.
-/
namespace Verif.Lint
open Syntax LuaLint LuaScope LuaUses
open Resolve hiding named isEnv

/-! ### The events are those of name resolution -/

theorem fst_at (c : Ctx) (r : Role) (e : Ev) : (c.at r e).1 = e := rfl

theorem ev_ps (c : Ctx) (len : Nat) : ∀ (ps : List Param) (i : Nat), (lvPs c len i ps).map (·.1) = (named ps).map .tgt
  | [], _ => rfl
  | none :: ps, i => by rw [lvPs, ev_ps c len ps (i + 1)]; rfl
  | some x :: ps, i => by rw [lvPs, List.map_cons, ev_ps c len ps (i + 1)]; rfl

theorem ev_head (c : Ctx) (self : Bool) (ps : List Param) : (lvHead c self ps).map (·.1) = evHead self ps := by
  simp [lvHead, evHead, evPs_eq, ev_ps, Ctx.at]

theorem ev_foot (c : Ctx) : (lvFoot c).map (·.1) = evFoot := rfl

theorem ev_fn (c : Ctx) (f : FnName) : (lvFn c f).map (·.1) = evFn f := by
  simp [lvFn, evFn, Ctx.at, Function.comp_def]

mutual
theorem ev_E : ∀ (e : Ex) (c : Ctx) (r : Role), (lvE c r e).map (·.1) = evE e
  | .var x, c, r => rfl
  | .num _, _, _ => rfl
  | .str _, _, _ => rfl
  | .cst _, _, _ => rfl
  | .vararg, _, _ => rfl
  | .func ps b, c, r => by simp only [lvE, evE, List.map_append, ev_head, ev_foot, ev_B b]
  | .group e, c, r => by simp only [lvE, evE, ev_E e]
  | .un _ e, c, r => by simp only [lvE, evE, ev_E e]
  | .bin _ l r, c, _ => by simp only [lvE, evE, List.map_append, ev_E l, ev_E r]
  | .member b x, c, r => by simp only [lvE, evE, List.map_append, List.map_cons, List.map_nil, fst_at, ev_E b]
  | .index b k, c, r => by simp only [lvE, evE, List.map_append, ev_E b, ev_E k]
  | .call b _ as, c, r => by simp only [lvE, evE, List.map_append, ev_E b, ev_Es as]
  | .method b x _ as, c, r => by simp only [lvE, evE, List.map_append, List.map_cons, fst_at, ev_E b, ev_Es as]
  | .table its, c, r => by simp only [lvE, evE, ev_Its its]
theorem ev_Es : ∀ (e : Exs) (c : Ctx) (r : Role), (lvEs c r e).map (·.1) = evEs e
  | .nil, _, _ => rfl
  | .cons e es, c, r => by simp only [lvEs, evEs, List.map_append, ev_E e, ev_Es es]
theorem ev_Src : ∀ (e : Exs) (c : Ctx) (fs : List Bool), (lvSrc c fs e).map (·.1) = evSrc fs e
  | .nil, _, _ => by simp only [lvSrc, evSrc, List.map_nil]
  | .cons e es, c, fs => by
    have h := ev_E e c .other
    cases e <;> simp only [lvE, evE] at h <;> simp only [lvSrc, evSrc, lvE, evE, List.map_append, ev_Src es, h]
    case table its => rw [ev_Its its]
theorem ev_Its : ∀ (e : Its) (c : Ctx) (f : Bool), (lvIts c f e).map (·.1) = evIts f e
  | .nil, _, _ => rfl
  | .pos e its, c, f => by simp only [lvIts, evIts, List.map_append, ev_E e, ev_Its its]
  | .named x e its, c, f => by simp only [lvIts, evIts, List.map_append, List.map_cons, fst_at, ev_E e, ev_Its its]
  | .keyed k e its, c, f => by simp only [lvIts, evIts, List.map_append, ev_E k, ev_E e, ev_Its its]
theorem ev_S : ∀ (s : St) (c : Ctx), (lvS c s).map (·.1) = evS s
  | .do_ b, c => by simp only [lvS, evS, List.map_append, List.map_cons, List.map_nil, fst_at, ev_B b]
  | .if_ i, c => by simp only [lvS, evS, ev_I i]
  | .while_ d b, c => by simp only [lvS, evS, List.map_append, List.map_cons, List.map_nil, fst_at, ev_E d, ev_B b]
  | .whileShort d b _, c => by simp only [lvS, evS, List.map_append, List.map_cons, List.map_nil, fst_at, ev_E d, ev_B b]
  | .repeat_ b d, c => by simp only [lvS, evS, List.map_append, List.map_cons, List.map_nil, fst_at, ev_E d, ev_B b]
  | .fornum x e f g d, c => by
    simp only [lvS, evS, List.map_append, List.map_cons, List.map_nil, fst_at, ev_E e, ev_E f, ev_Es g, ev_B d]
  | .forin xs es d, c => by
    simp only [lvS, evS, List.map_append, List.map_cons, List.map_nil, List.map_map, Function.comp_def, fst_at, ev_Es es, ev_B d]
  | .break_, _ => rfl
  | .return_ es, c => by simp only [lvS, evS, ev_Es es]
  | .local_ xs es, c => by
    simp only [lvS, evS, List.map_append, List.map_cons, List.map_nil, List.map_map, Function.comp_def, fst_at, ev_Src es]
  | .localfn x ps b, c => by simp only [lvS, evS, List.map_append, List.map_cons, fst_at, ev_head, ev_foot, ev_B b]
  | .goto_ x, _ => rfl
  | .label x, _ => rfl
  | .func f ps b, c => by simp only [lvS, evS, List.map_append, ev_fn, ev_head, ev_foot, ev_B b]
  | .assign ts es, c => by simp only [lvS, evS, List.map_append, ev_Es ts, ev_Src es]
  | .opassign _ t e, c => by simp only [lvS, evS, List.map_append, ev_E t, ev_E e]
  | .call e, c => by simp only [lvS, evS, ev_E e]
  | .print es, c => by simp only [lvS, evS, List.map_append, List.map_cons, List.map_nil, fst_at, ev_Es es]
theorem ev_I : ∀ (i : If) (c : Ctx), (lvI c i).map (·.1) = evI i
  | .long d b t, c => by simp only [lvI, evI, List.map_append, List.map_cons, fst_at, ev_E d, ev_B b, ev_T t]
  | .short d b _, c => by simp only [lvI, evI, List.map_append, List.map_cons, List.map_nil, fst_at, ev_E d, ev_B b]
  | .shortElse d b f _, c => by simp only [lvI, evI, List.map_append, List.map_cons, List.map_nil, fst_at, ev_E d, ev_B b, ev_B f]
theorem ev_T : ∀ (t : Tail) (c : Ctx), (lvT c t).map (·.1) = evT t
  | .end_, _ => rfl
  | .else_ b, c => by simp only [lvT, evT, List.map_append, List.map_cons, List.map_nil, fst_at, ev_B b]
  | .elseif_ i, c => by simp only [lvT, evT, ev_I i]
theorem ev_B : ∀ (b : Block) (c : Ctx), (lvB c b).map (·.1) = evB b
  | .nil, _ => rfl
  | .semi b, c => by simp only [lvB, evB, ev_B b]
  | .cons s b, c => by simp only [lvB, evB, List.map_append, ev_S s, ev_B b]
end

theorem ev_root (b : Block) : (lvRoot b).map (·.1) = evRoot b := by
  simp only [lvRoot, evRoot, List.map_cons, List.map_append, List.map_nil, fst_at, ev_B]

theorem lrun_fst : ∀ (es : List (Ev × Site)) (s : State), (lrun s es).map (·.1) = (run s (es.map (·.1))).2
  | [], _ => rfl
  | e :: es, s => by simp [lrun, run, lrun_fst es, Function.comp_def]

/-- The linter's nodes are those of name resolution. -/
theorem sites_fst (lb : List Nm) (b : Block) : (sites lb b).map (·.1) = nodes lb b := by
  rw [sites, lrun_fst, ev_root, nodes]

/-! ### The sites are those of the specification -/

/-- What is visible at a node. -/
def envAt (s : State) : Ev → Env
  | .tgt _ => match s.pend with
    | p :: _ => flat p.2
    | [] => []
  | _ => flat s.cur

/-- The nodes with their sites and what is visible there. -/
def vrun (s : State) : List (Ev × Site) → List (Node × Site × Env)
  | [] => []
  | e :: es => ((step s e.1).2.map fun n => (n, e.2, envAt s e.1)) ++ vrun (step s e.1).1 es

theorem vrun_lrun : ∀ (es : List (Ev × Site)) (s : State), (vrun s es).map (fun p => (p.1, p.2.1)) = lrun s es
  | [], _ => rfl
  | e :: es, s => by simp [lrun, vrun, vrun_lrun es, Function.comp_def]

theorem vrun_append : ∀ (a b : List (Ev × Site)) (s : State), vrun s (a ++ b) = vrun s a ++ vrun (run s (a.map (·.1))).1 b
  | [], _, _ => rfl
  | e :: a, b, s => by simp [vrun, run, vrun_append a b]

/-- What a role means. -/
def howUse : Role → How
  | .assign => .assigned
  | .opAssign => .changed
  | .func => .func
  | _ => .read

def howOf (n : Node) (t : Site) : How :=
  match n.ref with
  | .bind v => .declared v.id (!excused t.role)
  | .loc _ | .glob _ => howUse t.role
  | _ => .other

def placeOf : List (Option Nm) → Place
  | [] => .outside
  | [some x] => if x = nm "_init" then .init else .inside
  | _ => .inside

def toAt (p : Node × Site × Env) : At := ⟨p.1.name, howOf p.1 p.2.1, placeOf p.2.1.fns, p.2.1.fdepth, p.2.1.depth, p.2.2⟩

def posOf (c : Ctx) : Pos := ⟨placeOf c.fns, c.fdepth, c.depth⟩

theorem pos_block (c : Ctx) : posOf c.block = (posOf c).block := rfl

theorem pos_func (c : Ctx) (x : Option Nm) : posOf (c.func x) = (posOf c).func x := by
  have h : placeOf (x :: c.fns) = (placeOf c.fns).enter x := by
    rcases c.fns with _ | ⟨_ | y, _ | ⟨z, r⟩⟩
    · cases x <;> rfl
    · cases x <;> rfl
    · cases x <;> rfl
    · cases x <;> simp only [placeOf] <;> split <;> rfl
    · cases x <;> rfl
  unfold posOf Pos.func Ctx.func
  rw [← h]

/-- The nodes of some events are what `u` says, which may depend on what is visible and on the number of declarations before. -/
def VR (es : List (Ev × Site)) (u : Env → Nat → List At) : Prop := ∀ s : State, (vrun s es).map toAt = u (flat s.cur) s.nvar

theorem VR.nil : VR [] (fun _ _ => []) := fun _ => rfl

theorem VR.congr {a b : List (Ev × Site)} {u v : Env → Nat → List At} (h : VR a u) (he : b = a) (hu : ∀ e n, v e n = u e n) : VR b v := by
  subst he; intro s; rw [h s, hu]

theorem VR.append {a b : List (Ev × Site)} {k : Nat} {o : Env → Nat → List Occ} {u u' : Env → Nat → List At} (hr : RunE (a.map (·.1)) k o)
    (h : VR a u) (h' : VR b u') : VR (a ++ b) (fun e n => u e n ++ u' e (n + k)) := by
  intro s
  obtain ⟨h1, -, -, h4, -⟩ := hr s
  rw [vrun_append, List.map_append, h s, h' _, h1, h4]

theorem VR.appendS {a b : List (Ev × Site)} {k : Nat} {f : Env → Nat → Env} {o : Env → Nat → List Occ} {u u' : Env → Nat → List At}
    (hr : RunS (a.map (·.1)) k f o) (h : VR a u) (h' : VR b u') : VR (a ++ b) (fun e n => u e n ++ u' (f e n) (n + k)) := by
  intro s
  obtain ⟨h1, -, -, h4, -⟩ := hr s
  rw [vrun_append, List.map_append, h s, h' _, h1, h4]

theorem vrun_leave (s : State) (t : Site) : vrun s [(.leave, t)] = [] := by
  simp only [vrun, step]; cases s.saved <;> rfl
theorem vrun_close (s : State) (t : Site) : vrun s [(.close, t)] = [] := rfl
theorem vrun_add (s : State) (t : Site) : vrun s [(.add, t)] = [] := by
  simp only [vrun, step]; cases s.pend <;> rfl

theorem VR.block {b : List (Ev × Site)} {u : Env → Nat → List At} (fn : Bool) (t t' : Site) (h : VR b u) :
    VR ((.enter fn, t) :: (b ++ [(.leave, t')])) u := by
  intro s
  have e : vrun s ((.enter fn, t) :: (b ++ [(.leave, t')])) = vrun (step s (.enter fn)).1 b := by
    rw [vrun, vrun_append, vrun_leave]
    simp [step]
  rw [e, h]
  rfl

/-- Declarations: `fs` are the scopes around the new one. -/
def VT (ts : List (Ev × Site)) (u : Env → Nat → List At) : Prop :=
  ∀ (s : State) (f : Frame) (fs : List Frame) (p : List (Frame × List Frame)), s.pend = (f, fs) :: p → (vrun s ts).map toAt = u (flat fs) s.nvar

theorem VT.nil : VT [] (fun _ _ => []) := fun _ _ _ _ _ => rfl

theorem VT.cons {ts : List (Ev × Site)} {u : Env → Nat → List At} {c : Ctx} {r : Role} {x : Nm} (h : VT ts u) :
    VT (c.at r (.tgt x) :: ts) (fun e n => occ (posOf c) e (.declared n (!excused r)) x :: u e (n + 1)) := by
  intro s f fs p hs
  have hst : step s (.tgt x) = ({ s with pend := (⟨f.id, ⟨.loc, x, s.nvar, f.id⟩ :: f.vars⟩, fs) :: p, nvar := s.nvar + 1 },
      [⟨x, false, .bind ⟨.loc, x, s.nvar, f.id⟩, f.id :: ids fs⟩]) := by
    simp only [step, hs]
  have he : envAt s (.tgt x) = flat fs := by simp only [envAt, hs]
  simp only [vrun, fst_at, hst, he, List.map_append, List.map_cons, List.map_nil]
  rw [h _ ⟨f.id, ⟨.loc, x, s.nvar, f.id⟩ :: f.vars⟩ fs p rfl]
  rfl

theorem vt_decls (c : Ctx) : ∀ xs : List Nm, VT (xs.map fun x => c.at .other (.tgt x)) (fun e n => decls (posOf c) e n xs)
  | [] => VT.nil
  | _ :: xs => (VT.cons (vt_decls c xs) :)

theorem vt_params (c : Ctx) (len : Nat) : ∀ (ps : List Param) (i : Nat), i + ps.length = len →
    VT (lvPs c len i ps) (fun e n => params (posOf c) e n ps)
  | [], _, _ => VT.nil
  | none :: ps, i, h => vt_params c len ps (i + 1) (by rw [List.length_cons] at h; omega)
  | some x :: ps, i, h => by
    have ih := vt_params c len ps (i + 1) (by rw [List.length_cons] at h; omega)
    have hx : (!excused (.param i len true)) = ps.isEmpty := by
      rw [List.length_cons] at h
      simp only [excused, Bool.not_true, Bool.or_false]
      cases ps with
      | nil => rw [List.length_nil] at h; simp [h]
      | cons _ _ => rw [List.length_cons] at h; simp; omega
    have := VT.cons (c := c) (r := .param i len true) (x := x) ih
    rw [hx] at this
    exact this

/-- A new scope with its declarations. -/
theorem vr_targets (self : Bool) (t : Site) {ts : List (Ev × Site)} {u : Env → Nat → List At} (h : VT ts u) (s : State) :
    (vrun s ((.newScope self, t) :: ts)).map toAt =
      (if self then [toAt (⟨selfName, true, .bind ⟨.loc, selfName, s.nvar, s.nscope⟩, s.nscope :: ids s.cur⟩, t, flat s.cur)] else []) ++
        u (flat s.cur) (s.nvar + self.toNat) := by
  cases self
  · simp only [vrun, List.map_append]
    rw [h (step s (.newScope false)).1 ⟨s.nscope, []⟩ s.cur s.pend rfl]
    rfl
  · simp only [vrun, List.map_append]
    rw [h (step s (.newScope true)).1 ⟨s.nscope, [⟨.loc, selfName, s.nvar, s.nscope⟩]⟩ s.cur s.pend rfl]
    rfl

theorem VR.local_ {ts src : List (Ev × Site)} {k : Nat} {o : Env → Nat → List Occ} {u u' : Env → Nat → List At} {xs : List Nm} (t t' : Site)
    (hts : ts.map (·.1) = xs.map .tgt) (ht : VT ts u) (_hr : RunE (src.map (·.1)) k o) (h : VR src u') :
    VR ((.newScope false, t) :: ts ++ (src ++ [(.add, t')])) (fun e n => u e n ++ u' e (n + xs.length)) := by
  intro s
  obtain ⟨g, -, g2, -, g4, -, -⟩ := run_targets false xs s
  rw [vrun_append, vrun_append, vrun_add, List.append_nil, List.map_append, vr_targets false t ht, h _, List.map_cons, hts, g2, g4]
  simp [selfs]

theorem VR.scope {ts src body : List (Ev × Site)} {k k' : Nat} {o o' : Env → Nat → List Occ} {u u' u'' : Env → Nat → List At} {xs : List Nm}
    (self : Bool) (c : Ctx) (r : Role) (hx : self = true → excused r = true) (t t' : Site) (hts : ts.map (·.1) = xs.map .tgt) (ht : VT ts u)
    (hr : RunE (src.map (·.1)) k o) (h : VR src u') (_hr' : RunE (body.map (·.1)) k' o') (h' : VR body u'') :
    VR (c.at r (.newScope self) :: ts ++ (src ++ (.add, t) :: (body ++ [(.close, t')])))
      (fun e n => (if self then [occ (posOf c) e (.declared n false) (nm "self")] else []) ++ (u e (n + self.toNat) ++
        (u' e (n + (selfs self ++ xs).length) ++ u'' (bind e n (selfs self ++ xs)) (n + (selfs self ++ xs).length + k)))) := by
  intro s
  obtain ⟨g, g1, g2, g3, g4, g5, g6⟩ := run_targets self xs s
  obtain ⟨h1, h2, h3, h4, h5⟩ := hr (run s (.newScope self :: xs.map .tgt)).1
  rw [g1] at h2
  have ha : step (run (run s (.newScope self :: xs.map .tgt)).1 (src.map (·.1))).1 .add =
      ({ (run (run s (.newScope self :: xs.map .tgt)).1 (src.map (·.1))).1 with cur := g :: s.cur, pend := s.pend }, []) := by
    simp only [step, h2]
  have hb : ∀ S S' : State, step S .add = (S', []) → vrun S ((.add, t) :: (body ++ [(.close, t')])) = vrun S' body := by
    intro S S' hS
    rw [vrun, vrun_append, vrun_close, List.append_nil, hS]
    rfl
  rw [vrun_append, vrun_append, List.map_append, List.map_append, List.map_cons, fst_at, hts, h _, hb _ _ ha, h' _, g2, g4]
  simp only
  rw [h4, g4, g6, show c.at r (.newScope self) = (.newScope self, ⟨r, c.fns, c.depth, c.fdepth⟩) from rfl, vr_targets self _ ht, List.append_assoc]
  congr 1
  cases self
  · rfl
  · simp only [if_true, toAt, howOf, hx rfl]
    rfl

theorem runE_of {a : List (Ev × Site)} {b : List Ev} {k : Nat} {o : Env → Nat → List Occ} (h : RunE b k o) (e : a.map (·.1) = b) :
    RunE (a.map (·.1)) k o := by rw [e]; exact h

theorem runS_of {a : List (Ev × Site)} {b : List Ev} {k : Nat} {f : Env → Nat → Env} {o : Env → Nat → List Occ} (h : RunS b k f o)
    (e : a.map (·.1) = b) : RunS (a.map (·.1)) k f o := by rw [e]; exact h

theorem rE (c : Ctx) (r : Role) (e : Ex) : RunE ((lvE c r e).map (·.1)) (nE e) (fun v n => oE v n e) := runE_of (pE e) (ev_E e c r)
theorem rEs (c : Ctx) (r : Role) (e : Exs) : RunE ((lvEs c r e).map (·.1)) (nEs e) (fun v n => oEs v n e) := runE_of (pEs e) (ev_Es e c r)
theorem rSrc (c : Ctx) (fs : List Bool) (e : Exs) : RunE ((lvSrc c fs e).map (·.1)) (nEs e) (fun v n => oSrc v n fs e) :=
  runE_of (pSrc e fs) (ev_Src e c fs)
theorem rIts (c : Ctx) (f : Bool) (e : Its) : RunE ((lvIts c f e).map (·.1)) (nIts e) (fun v n => oIts v n f e) :=
  runE_of (pIts e f) (ev_Its e c f)
theorem rB (c : Ctx) (b : Block) : RunS ((lvB c b).map (·.1)) (nB b) (fun v n => atEnd v n b) (fun v n => oB v n b) := runS_of (pB b) (ev_B b c)
theorem rS (c : Ctx) (b : St) : RunS ((lvS c b).map (·.1)) (nS b) (fun v n => after v n b) (fun v n => oS v n b) := runS_of (pS b) (ev_S b c)
theorem rBl (c c' : Ctx) (r r' : Role) (fn : Bool) (b : Block) :
    RunE ((c.at r (.enter fn) :: (lvB c' b ++ [c.at r' .leave])).map (·.1)) (nB b) (fun v n => oB v n b) :=
  runE_of ((pB b).block fn) (by simp only [List.map_cons, List.map_append, List.map_nil, fst_at, ev_B])

/-! ### Single nodes -/

theorem toAt_use (c : Ctx) (r : Role) (s : State) (x : Nm) (i : Bool) :
    toAt (useNode s x i, ⟨r, c.fns, c.depth, c.fdepth⟩, flat s.cur) = occ (posOf c) (flat s.cur) (howUse r) x := by
  unfold useNode
  cases findIn x s.cur <;> rfl

theorem vr_use (c : Ctx) (r : Role) (x : Nm) : VR [c.at r (.use x)] (fun e _ => [occ (posOf c) e (howUse r) x]) := fun s => by
  exact congrArg (fun a => [a]) (toAt_use c r s x false)

theorem vr_print (c : Ctx) : VR [c.at .other .print] (fun e _ => [occ (posOf c) e .read (nm "print")]) := fun s => by
  have := toAt_use c .other s printName true
  exact congrArg (fun a => [a]) this

theorem vr_member (c : Ctx) (x : Nm) (f : Bool) : VR [c.at .other (.member x f)] (fun e _ => [occ (posOf c) e .other x]) := fun _ => rfl
theorem vr_label (c : Ctx) (x : Nm) : VR [c.at .other (.label x)] (fun e _ => [occ (posOf c) e .other x]) := fun _ => rfl
theorem vr_goto (c : Ctx) (x : Nm) : VR [c.at .other (.goto_ x)] (fun e _ => [occ (posOf c) e .other x]) := fun _ => rfl

theorem vr_members (c : Ctx) : ∀ (l : List (Nm × Nat)) (g : Nm × Nat → Bool),
    VR (l.map fun p => c.at .other (.member p.1 (g p))) (fun e _ => l.map fun p => occ (posOf c) e .other p.1)
  | [], _ => VR.nil
  | p :: l, g => VR.append (runE_of (RunE.member p.1 (g p)) rfl) (vr_member c p.1 (g p)) (vr_members c l g)

theorem zipIdx_fst {α β : Type} (f : α → β) : ∀ (l : List α) (n : Nat), (l.zipIdx n).map (fun p => f p.1) = l.map f
  | [], _ => rfl
  | a :: l, n => by rw [List.zipIdx_cons, List.map_cons, List.map_cons, zipIdx_fst f l]

theorem vr_fn (c : Ctx) (f : FnName) : VR (lvFn c f) (fun e _ => fnName (posOf c) e f) := by
  refine (VR.append (runE_of (RunE.use f.base) rfl) (vr_use c (if f.keys.isEmpty && f.meth.isNone then .func else .other) f.base)
    (vr_members c ((f.keys ++ f.meth.toList).zipIdx) (fun p => p.2 == 0 && f.base == envName))).congr rfl fun e n => ?_
  rw [zipIdx_fst (occ (posOf c) e .other)]
  have : howUse (if f.keys.isEmpty && f.meth.isNone then .func else .other) = if f.keys = [] ∧ f.meth = none then .func else .read := by
    cases f.keys <;> cases f.meth <;> rfl
  rw [this]
  rfl

/-- Functions. -/
theorem vr_body {b : Block} {u : Env → Nat → List At} (c c' : Ctx) (self : Bool) (ps : List Param) (h : VR (lvB c b) u) :
    VR (lvHead c self ps ++ (lvB c b ++ lvFoot c')) (fun e n => (if self then [occ (posOf c) e (.declared n false) (nm "self")] else []) ++
      (params (posOf c) e (n + self.toNat) ps ++ u (bind e n (selfs self ++ named ps)) (n + (selfs self ++ named ps).length))) := by
  have hv := VR.scope self c (.param 0 (self.toNat + ps.length) false) (fun _ => by simp [excused]) ⟨.other, c.fns, c.depth, c.fdepth⟩
    ⟨.other, c'.fns, c'.depth, c'.fdepth⟩ (ev_ps c _ ps self.toNat) (vt_params c (self.toNat + ps.length) ps self.toNat rfl)
    (runE_of (a := []) RunE.nil rfl) VR.nil
    (runE_of (a := (.enter true, ⟨.other, c.fns, c.depth, c.fdepth⟩) :: (lvB c b ++ [(.leave, ⟨.other, c'.fns, c'.depth, c'.fdepth⟩)]))
      ((pB b).block true) (by simp [ev_B])) (h.block true _ _)
  refine hv.congr ?_ fun e n => ?_
  · simp [lvHead, lvFoot, Ctx.at]
  · simp

theorem func_name (f : FnName) : funcName f = fullName f := by
  have h : ∀ (ks : List Nm) (x : Nm), ks.foldl (fun x k => x ++ nm "." ++ k) x = x ++ ks.flatMap (fun k => nm "." ++ k) := by
    intro ks
    induction ks with
    | nil => intro x; simp
    | cons k ks ih => intro x; rw [List.foldl_cons, ih, List.flatMap_cons]; simp
  unfold funcName fullName
  rw [h]
  cases f.meth <;> simp

/-- An expression that is used as `h` says if it is just a name. -/
def uR (h : How) (p : Pos) (env : Env) (n : Nat) : Ex → List At
  | .var x => [occ p env h x]
  | e => uE p env n e

theorem uR_read (p : Pos) (env : Env) (n : Nat) (e : Ex) : uR .read p env n e = uE p env n e := by
  cases e <;> simp only [uR, uE]

abbrev VE (e : Ex) : Prop := ∀ c r, VR (lvE c r e) (fun v n => uR (howUse r) (posOf c) v n e)
abbrev VEs (e : Exs) : Prop := ∀ c, VR (lvEs c .other e) (fun v n => uEs (posOf c) v n e)
abbrev VTs (e : Exs) : Prop := ∀ c, VR (lvEs c .assign e) (fun v n => uTgts (posOf c) v n e)
abbrev VSrc (e : Exs) : Prop := ∀ c fs, VR (lvSrc c fs e) (fun v n => uEs (posOf c) v n e)
abbrev VIts (e : Its) : Prop := ∀ c f, VR (lvIts c f e) (fun v n => uIts (posOf c) v n e)
abbrev VS (s : St) : Prop := ∀ c, VR (lvS c s) (fun v n => uS (posOf c) v n s)
abbrev VI (s : If) : Prop := ∀ c, VR (lvI c s) (fun v n => uI (posOf c) v n s)
abbrev VTl (s : Tail) : Prop := ∀ c, VR (lvT c s) (fun v n => uT (posOf c) v n s)
abbrev VB (b : Block) : Prop := ∀ c, VR (lvB c b) (fun v n => uB (posOf c) v n b)

theorem VE.read {e : Ex} (h : VE e) (c : Ctx) : VR (lvE c .other e) (fun v n => uE (posOf c) v n e) :=
  (h c .other).congr rfl fun _ _ => (uR_read ..).symm

theorem vb {b : Block} (h : VB b) (c : Ctx) (r r' : Role) :
    VR (c.at r (.enter false) :: (lvB c.block b ++ [c.at r' .leave])) (fun v n => uB (posOf c).block v n b) :=
  (h c.block).block false _ _

theorem vs_target {e : Ex} {es : Exs} (h : VE e) (hs : VTs es) : VTs (.cons e es) := fun c =>
  (VR.append (rE c .assign e) (h c .assign) (hs c)).congr (by rw [lvEs]) fun v n => by
    cases e <;> simp only [uTgts, uR, howUse, nE, List.singleton_append, Nat.add_zero]

theorem vs_src {e : Ex} {es : Exs} (h : VE e) (hi : ∀ its, e = .table its → VIts its) (hs : VSrc es) : VSrc (.cons e es) := fun c fs => by
  have ht : (∀ its, e ≠ .table its) → VR (lvSrc c fs (.cons e es)) (fun v n => uEs (posOf c) v n (.cons e es)) := fun ht =>
    (VR.append (rE c .other e) (h.read c) (hs c fs.tail)).congr (by rw [lvSrc]; exact ht) fun v n => by rw [uEs]
  cases e
  case table its =>
    exact (VR.append (rIts c (fs.headD false) its) (hi its rfl c (fs.headD false)) (hs c fs.tail)).congr (by rw [lvSrc]) fun v n => by
      simp only [uEs, uE, nE]
  all_goals exact ht (by simp)

theorem vs_repeat {b : Block} {d : Ex} (hb : VB b) (hd : VE d) : VS (.repeat_ b d) := fun c =>
  (VR.block false ⟨.other, c.fns, c.depth, c.fdepth⟩ ⟨.other, c.fns, c.depth, c.fdepth⟩ (VR.appendS (rB c.block b) (hb c.block) (hd.read c.block))).congr (by simp only [lvS, List.append_assoc, Ctx.at])
    fun v n => by simp only [uS, pos_block]

theorem vs_fornum {x : Nm} {e f : Ex} {g : Exs} {d : Block} (he : VE e) (hf : VE f) (hg : VEs g) (hd : VB d) : VS (.fornum x e f g d) := fun c => by
  have hsrc := VR.append (rE c .other e) (he.read c) (VR.append (rE c .other f) (hf.read c) (hg c))
  have hrun : RunE ((lvE c .other e ++ (lvE c .other f ++ lvEs c .other g)).map (·.1)) (nE e + (nE f + nEs g)) _ :=
    runE_of ((pE e).append ((pE f).append (pEs g))) (by simp only [List.map_append, ev_E, ev_Es])
  refine (VR.scope false c .other (by simp) ⟨.other, c.fns, c.depth, c.fdepth⟩ ⟨.other, c.fns, c.depth, c.fdepth⟩
    (xs := [x]) (ts := [c.block.at .other (.tgt x)]) rfl (vt_decls c.block [x]) hrun hsrc
    (rBl c c.block .other .other false d) (vb hd c .other .other)).congr ?_ fun v n => ?_
  · simp only [lvS, List.cons_append, List.nil_append, List.append_assoc, Ctx.at]
  · simp [uS, decls, selfs, Nat.add_assoc, pos_block]

theorem vs_forin {xs : List Nm} {es : Exs} {d : Block} (he : VEs es) (hd : VB d) : VS (.forin xs es d) := fun c => by
  refine (VR.scope false c .other (by simp) ⟨.other, c.fns, c.depth, c.fdepth⟩ ⟨.other, c.fns, c.depth, c.fdepth⟩
    (xs := xs) (by simp [Function.comp_def, fst_at]) (vt_decls c.block xs) (rEs c .other es) (he c)
    (rBl c c.block .other .other false d) (vb hd c .other .other)).congr ?_ fun v n => ?_
  · simp only [lvS, List.cons_append, List.append_assoc, Ctx.at]; rfl
  · simp [uS, selfs, pos_block]

theorem vs_local {xs : List (Nm × Option Nm)} {es : Exs} (he : VSrc es) : VS (.local_ xs es) := fun c => by
  refine (VR.local_ ⟨.other, c.fns, c.depth, c.fdepth⟩ ⟨.other, c.fns, c.depth, c.fdepth⟩ (xs := xs.map (·.1))
    (ts := (xs.map (·.1)).map fun x => c.at .other (.tgt x)) (by simp [Function.comp_def, fst_at])
    (vt_decls c (xs.map (·.1))) (rSrc c (xs.map (·.1 == envName)) es) (he c _)).congr ?_ fun v n => ?_
  · simp [lvS, Ctx.at, Function.comp_def]
  · simp [uS]

theorem vs_localfn {x : Nm} {ps : List Param} {b : Block} (hb : VB b) : VS (.localfn x ps b) := fun c => by
  have h1 := VR.local_ (u := fun e n => [occ (posOf c) e (.declared n true) x]) ⟨.other, c.fns, c.depth, c.fdepth⟩ ⟨.other, c.fns, c.depth, c.fdepth⟩
    (xs := [x]) (ts := [c.at .func (.tgt x)]) rfl (VT.cons (c := c) (r := .func) (x := x) VT.nil) (runE_of (a := []) RunE.nil rfl) VR.nil
  have h2 := vr_body (c.func (some x)) c false ps (hb (c.func (some x)))
  refine (VR.appendS (runS_of (RunS.local_ [x] RunE.nil) rfl) h1 h2).congr ?_ fun v n => ?_
  · simp [lvS, Ctx.at]
  · simp [uS, selfs, pos_func]

theorem vs_func {f : FnName} {ps : List Param} {b : Block} (hb : VB b) : VS (.func f ps b) := fun c => by
  have hm : selfs f.meth.isSome ++ named ps = methodParams f ps := by
    cases h : f.meth <;> simp [methodParams, selfs, h]
  have h := vr_body (c.func (some (funcName f))) c f.meth.isSome ps (hb (c.func (some (funcName f))))
  rw [hm] at h
  refine (VR.append (runE_of (RunE.fnName f) (ev_fn c f)) (vr_fn c f) h).congr (by simp only [lvS]) fun v n => ?_
  simp only [uS, pos_func, func_name, Nat.add_zero]
  cases hf : f.meth <;> simp [selfParam, hf]

mutual
theorem vE : ∀ e, VE e
  | .var x => fun c r => (vr_use c r x).congr rfl fun _ _ => rfl
  | .num _ => fun _ _ => VR.nil.congr rfl fun _ _ => rfl
  | .str _ => fun _ _ => VR.nil.congr rfl fun _ _ => rfl
  | .cst _ => fun _ _ => VR.nil.congr rfl fun _ _ => rfl
  | .vararg => fun _ _ => VR.nil.congr rfl fun _ _ => rfl
  | .func ps b => fun c _ => (vr_body (c.func none) c false ps (vB b (c.func none))).congr (by simp only [lvE]) fun _ _ => by
      simp [uR, uE, pos_func, selfs]
  | .group e => fun c _ => ((vE e).read c).congr (by simp only [lvE]) fun _ _ => by simp only [uR, uE]
  | .un _ e => fun c _ => ((vE e).read c).congr (by simp only [lvE]) fun _ _ => by simp only [uR, uE]
  | .bin _ l r => fun c _ => (VR.append (rE c .other l) ((vE l).read c) ((vE r).read c)).congr (by simp only [lvE]) fun _ _ => by simp only [uR, uE]
  | .member b x => fun c _ => (VR.append (rE c .other b) ((vE b).read c) (vr_member c x (Resolve.isEnv b))).congr (by simp only [lvE]) fun _ _ => by
      simp only [uR, uE]
  | .index b k => fun c _ => (VR.append (rE c .other b) ((vE b).read c) ((vE k).read c)).congr (by simp only [lvE]) fun _ _ => by simp only [uR, uE]
  | .call b _ as => fun c _ => (VR.append (rE c .other b) ((vE b).read c) (vEs as c)).congr (by simp only [lvE]) fun _ _ => by simp only [uR, uE]
  | .method b x _ as => fun c _ => (VR.append (rE c .other b) ((vE b).read c)
      (VR.append (runE_of (RunE.member x (Resolve.isEnv b)) rfl) (vr_member c x (Resolve.isEnv b)) (vEs as c))).congr (by simp [lvE]) fun _ _ => by
      simp [uR, uE]
  | .table its => fun c _ => (vIts its c false).congr (by simp only [lvE]) fun _ _ => by simp only [uR, uE]
theorem vEs : ∀ e, VEs e
  | .nil => fun _ => VR.nil.congr rfl fun _ _ => rfl
  | .cons e es => fun c => (VR.append (rE c .other e) ((vE e).read c) (vEs es c)).congr (by simp only [lvEs]) fun _ _ => by simp only [uEs]
theorem vTs : ∀ e, VTs e
  | .nil => fun _ => VR.nil.congr rfl fun _ _ => by simp only [uTgts]
  | .cons e es => vs_target (vE e) (vTs es)
theorem vSrc : ∀ e, VSrc e
  | .nil => fun _ _ => VR.nil.congr (by simp only [lvSrc]) fun _ _ => rfl
  | .cons (.table its) es => vs_src (vE (.table its)) (fun _ h => by cases h; exact vIts its) (vSrc es)
  | .cons (.var x) es => vs_src (vE (.var x)) (by simp) (vSrc es)
  | .cons (.num x) es => vs_src (vE (.num x)) (by simp) (vSrc es)
  | .cons (.str x) es => vs_src (vE (.str x)) (by simp) (vSrc es)
  | .cons (.cst x) es => vs_src (vE (.cst x)) (by simp) (vSrc es)
  | .cons .vararg es => vs_src (vE .vararg) (by simp) (vSrc es)
  | .cons (.func x y) es => vs_src (vE (.func x y)) (by simp) (vSrc es)
  | .cons (.group x) es => vs_src (vE (.group x)) (by simp) (vSrc es)
  | .cons (.un x y) es => vs_src (vE (.un x y)) (by simp) (vSrc es)
  | .cons (.bin x y z) es => vs_src (vE (.bin x y z)) (by simp) (vSrc es)
  | .cons (.member x y) es => vs_src (vE (.member x y)) (by simp) (vSrc es)
  | .cons (.index x y) es => vs_src (vE (.index x y)) (by simp) (vSrc es)
  | .cons (.call x y z) es => vs_src (vE (.call x y z)) (by simp) (vSrc es)
  | .cons (.method x y z w) es => vs_src (vE (.method x y z w)) (by simp) (vSrc es)
theorem vIts : ∀ e, VIts e
  | .nil => fun _ _ => VR.nil.congr rfl fun _ _ => rfl
  | .pos e its => fun c f => (VR.append (rE c .other e) ((vE e).read c) (vIts its c f)).congr (by simp only [lvIts]) fun _ _ => by simp only [uIts]
  | .named x e its => fun c f => (VR.append (runE_of (RunE.member x f) rfl) (vr_member c x f)
      (VR.append (rE c .other e) ((vE e).read c) (vIts its c f))).congr (by simp [lvIts]) fun _ _ => by simp [uIts]
  | .keyed k e its => fun c f => (VR.append (rE c .other k) ((vE k).read c) (VR.append (rE c .other e) ((vE e).read c) (vIts its c f))).congr
      (by simp only [lvIts]) fun _ _ => by simp only [uIts]
theorem vS : ∀ s, VS s
  | .do_ b => fun c => (vb (vB b) c .other .other).congr (by simp only [lvS]) fun _ _ => by simp only [uS]
  | .if_ i => fun c => (vI i c).congr (by simp only [lvS]) fun _ _ => by simp only [uS]
  | .while_ d b => fun c => (VR.append (rE c .other d) ((vE d).read c) (vb (vB b) c .other .other)).congr (by simp only [lvS]) fun _ _ => by simp only [uS]
  | .whileShort d b _ => fun c => (VR.append (rE c .other d) ((vE d).read c) (vb (vB b) c .other .other)).congr (by simp only [lvS]) fun _ _ => by
      simp only [uS]
  | .repeat_ b d => vs_repeat (vB b) (vE d)
  | .fornum _ e f g d => vs_fornum (vE e) (vE f) (vEs g) (vB d)
  | .forin _ es d => vs_forin (vEs es) (vB d)
  | .break_ => fun _ => VR.nil.congr rfl fun _ _ => rfl
  | .return_ es => fun c => (vEs es c).congr (by simp only [lvS]) fun _ _ => by simp only [uS]
  | .local_ _ es => vs_local (vSrc es)
  | .localfn _ _ b => vs_localfn (vB b)
  | .goto_ x => fun c => (vr_goto c x).congr rfl fun _ _ => rfl
  | .label x => fun c => (vr_label c x).congr rfl fun _ _ => rfl
  | .func _ _ b => vs_func (vB b)
  | .assign ts es => fun c => (VR.append (rEs c .assign ts) (vTs ts c) (vSrc es c (envTargets ts))).congr (by simp only [lvS]) fun _ _ => by simp only [uS]
  | .opassign _ t e => fun c => (VR.append (rE c .opAssign t) (vE t c .opAssign) ((vE e).read c)).congr (by simp only [lvS]) fun _ _ => by
      cases t <;> simp only [uS, uR, howUse, nE, List.singleton_append, Nat.add_zero]
  | .call e => fun c => ((vE e).read c).congr (by simp only [lvS]) fun _ _ => by simp only [uS]
  | .print es => fun c => (VR.append (rEs c .other es) (vEs es c) (vr_print c)).congr (by simp only [lvS]) fun _ _ => by simp only [uS]
theorem vI : ∀ i, VI i
  | .long d b t => fun c => (VR.append (rE c .other d) ((vE d).read c)
      (VR.append (rBl c c.block .other .other false b) (vb (vB b) c .other .other) (vT t c))).congr (by simp [lvI]) fun _ _ => by simp only [uI]
  | .short d b _ => fun c => (VR.append (rE c .other d) ((vE d).read c) (vb (vB b) c .other .other)).congr (by simp only [lvI]) fun _ _ => by simp only [uI]
  | .shortElse d b f _ => fun c => (VR.append (rE c .other d) ((vE d).read c)
      (VR.append (rBl c c.block .other .other false b) (vb (vB b) c .other .other) (vb (vB f) c .other .other))).congr (by simp [lvI]) fun _ _ => by
      simp only [uI]
theorem vT : ∀ t, VTl t
  | .end_ => fun _ => VR.nil.congr rfl fun _ _ => rfl
  | .else_ b => fun c => (vb (vB b) c .other .other).congr (by simp only [lvT]) fun _ _ => by simp only [uT]
  | .elseif_ i => fun c => (vI i c).congr (by simp only [lvT]) fun _ _ => by simp only [uT]
theorem vB : ∀ b, VB b
  | .nil => fun _ => VR.nil.congr rfl fun _ _ => rfl
  | .semi b => fun c => (vB b c).congr (by simp only [lvB]) fun _ _ => by simp only [uB]
  | .cons s b => fun c => (VR.appendS (rS c s) (vS s c) (vB b c)).congr (by simp only [lvB]) fun _ _ => by simp only [uB]
end

/-- The occurrences of a program, with what the linter knows about them. -/
def vsites (lb : List Nm) (b : Block) : List (Node × Site × Env) := vrun (start lb) (lvRoot b)

theorem vsites_at (lb : List Nm) (b : Block) : (vsites lb b).map toAt = LuaUses.program lb b := by
  rw [vsites, lvRoot, Ctx.at, Ctx.at, (vB b top).block true _ _ (start lb)]
  simp only [start, flat_root]
  rfl

theorem vsites_sites (lb : List Nm) (b : Block) : (vsites lb b).map (fun p => (p.1, p.2.1)) = sites lb b := vrun_lrun _ _

end Verif.Lint
