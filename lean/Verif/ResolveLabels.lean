import Verif.ResolveLemmas
import Verif.Spec.LuaLabels
/-
Lemmas about labels, for C62.
-/
namespace Verif.Resolve
open Syntax LuaLabels

/-- Labels with their names. -/
def named (vs : List RVar) : List (RVar × List Nat) := vs.map fun v => (v, v.name)

/-- The numbers of the labels that the `goto`s among the nodes refer to, given all labels. -/
def targets (all : List RVar) (ns : List Node) : List (Option Nat) :=
  ns.filterMap fun n => if n.ref = .goto_ then some ((findVar (named all) n.name n.chain).map (·.id)) else none

/-- What is visible from a label scope. -/
def visOf (all : List RVar) (chain : List Nat) : Vis := fun x => (findVar (named all) x chain).map (·.id)

theorem labelsOf_append (a b : List Node) : labelsOf (a ++ b) = labelsOf a ++ labelsOf b := by simp [labelsOf]

theorem targets_append (all : List RVar) (a b : List Node) : targets all (a ++ b) = targets all a ++ targets all b := by simp [targets]

/-- Number and name of the labels of a scope. -/
def ofScope (c : Nat) (vs : List RVar) : List (Nm × Nat) := (vs.filter fun v => v.scope = c).map fun v => (v.name, v.id)

theorem ofScope_append (c : Nat) (a b : List RVar) : ofScope c (a ++ b) = ofScope c a ++ ofScope c b := by simp [ofScope]

theorem ofScope_nil {c : Nat} {vs : List RVar} (h : ∀ v ∈ vs, v.scope ≠ c) : ofScope c vs = [] := by
  unfold ofScope
  rw [List.filter_eq_nil_iff.2 (fun v hv => by simpa using h v hv)]
  rfl

/-- Entering a block. -/
theorem vis_within (all : List RVar) (c : Nat) (ls : List Nat) : visOf all (c :: ls) = within (visOf all ls) (ofScope c all) := by
  funext x
  have h : ((ofScope c all).filter fun p => p.1 == x) =
      ((named all).filter fun d => decide (d.1.scope = c) && decide (d.2 = x)).map fun d => (d.1.name, d.1.id) := by
    unfold ofScope named
    rw [List.filter_map, List.filter_map, List.map_map, List.filter_filter]
    congr 1
    apply List.filter_congr
    intro v _
    simp only [Function.comp_def]
    rw [Bool.and_comm]
    congr 1
    rw [Bool.eq_iff_iff]; simp
  unfold visOf within
  rw [h, List.getLast?_map]
  simp only [findVar]
  cases ((named all).filter fun d => decide (d.1.scope = c) && decide (d.2 = x)).getLast? <;> rfl

/-- Parsing something in a block: `k` labels, of which `own` belong to the block itself, and what the `goto`s refer to. -/
def RunL (es : List Ev) (k : Nat) (own : Nat → List (Nm × Nat)) (g : Vis → Nat → List (Option Nat)) : Prop :=
  ∀ (s : State) (c : Nat) (ls : List Nat), s.labs = c :: ls → c < s.nlab →
    (run s es).1.labs = s.labs ∧ (run s es).1.saved = s.saved ∧ s.nlab ≤ (run s es).1.nlab ∧ (run s es).1.nlabel = s.nlabel + k ∧
    ofScope c (labelsOf (run s es).2) = own s.nlabel ∧
    (∀ v ∈ labelsOf (run s es).2, v.scope = c ∨ (s.nlab ≤ v.scope ∧ v.scope < (run s es).1.nlab)) ∧
    ∀ all A B, all = A ++ (labelsOf (run s es).2 ++ B) → (∀ v ∈ A ++ B, ¬ (s.nlab ≤ v.scope ∧ v.scope < (run s es).1.nlab)) →
      targets all (run s es).2 = g (visOf all s.labs) s.nlabel

/-- The same for something without labels of its own that cannot see those of the block. -/
abbrev RunX (es : List Ev) (k : Nat) (g : Nat → List (Option Nat)) : Prop := RunL es k (fun _ => []) (fun _ n => g n)

theorem RunL.append {a b : List Ev} {k k' : Nat} {w w' : Nat → List (Nm × Nat)} {g g' : Vis → Nat → List (Option Nat)} (h : RunL a k w g)
    (h' : RunL b k' w' g') : RunL (a ++ b) (k + k') (fun n => w n ++ w' (n + k)) (fun v n => g v n ++ g' v (n + k)) := by
  intro s c ls hs hc
  obtain ⟨h1, h2, h3, h4, h5, h6, h7⟩ := h s c ls hs hc
  obtain ⟨i1, i2, i3, i4, i5, i6, i7⟩ := h' (run s a).1 c ls (by rw [h1, hs]) (by omega)
  rw [run_append]
  simp only [labelsOf_append, targets_append, ofScope_append]
  refine ⟨by rw [i1, h1], by rw [i2, h2], by omega, by rw [i4, h4]; omega, by rw [h5, i5, h4], ?_, ?_⟩
  · intro v hv
    rcases List.mem_append.1 hv with hv | hv
    · rcases h6 v hv with h | h
      · exact Or.inl h
      · exact Or.inr ⟨h.1, by omega⟩
    · rcases i6 v hv with h | h
      · exact Or.inl h
      · exact Or.inr ⟨by omega, h.2⟩
  · intro all A B hall hAB
    rw [h7 all A (labelsOf (run (run s a).1 b).2 ++ B) (by simpa using hall) ?_,
      i7 all (A ++ labelsOf (run s a).2) B (by simpa using hall) ?_, h1, h4]
    · intro v hv
      rcases List.mem_append.1 hv with hv | hv
      · rcases List.mem_append.1 hv with hv | hv
        · have := hAB v (List.mem_append_left _ hv); omega
        · have := h6 v hv; omega
      · have := hAB v (List.mem_append_right _ hv); omega
    · intro v hv
      rcases List.mem_append.1 hv with hv | hv
      · have := hAB v (List.mem_append_left _ hv); omega
      · rcases List.mem_append.1 hv with hv | hv
        · have := i6 v hv; omega
        · have := hAB v (List.mem_append_right _ hv); omega

theorem RunL.nil : RunX [] 0 (fun _ => []) := by
  intro s c ls hs hc
  refine ⟨rfl, rfl, Nat.le_refl _, rfl, rfl, by simp [run, labelsOf], ?_⟩
  intro all A B _ _
  rfl

theorem RunX.append {a b : List Ev} {k k' : Nat} {g g' : Nat → List (Option Nat)} (h : RunX a k g) (h' : RunX b k' g') :
    RunX (a ++ b) (k + k') (fun n => g n ++ g' (n + k)) := RunL.append h h'

/-- Events that have nothing to do with labels. -/
def quiet : Ev → Bool
  | .newScope _ | .add | .close | .tgt _ | .use _ | .print | .member _ _ => true
  | _ => false

theorem RunX.quiet {e : Ev} (h : quiet e = true) : RunX [e] 0 (fun _ => []) := by
  intro s c ls hs hc
  have hu : ∀ x i, labelsOf [useNode s x i] = [] ∧ ∀ all, targets all [useNode s x i] = [] := by
    intro x i
    refine ⟨?_, fun all => ?_⟩ <;> simp only [useNode] <;> cases findIn x s.cur <;> rfl
  have key : (step s e).1.labs = s.labs ∧ (step s e).1.saved = s.saved ∧ (step s e).1.nlab = s.nlab ∧ (step s e).1.nlabel = s.nlabel ∧
      labelsOf (step s e).2 = [] ∧ ∀ all, targets all (step s e).2 = [] := by
    cases e with
    | newScope f => cases f <;> exact ⟨rfl, rfl, rfl, rfl, rfl, fun _ => rfl⟩
    | add => simp only [step]; cases s.pend <;> exact ⟨rfl, rfl, rfl, rfl, rfl, fun _ => rfl⟩
    | close => exact ⟨rfl, rfl, rfl, rfl, rfl, fun _ => rfl⟩
    | tgt x => simp only [step]; cases s.pend <;> exact ⟨rfl, rfl, rfl, rfl, rfl, fun _ => rfl⟩
    | use x => exact ⟨rfl, rfl, rfl, rfl, hu x false⟩
    | print => exact ⟨rfl, rfl, rfl, rfl, hu printName true⟩
    | member x f => exact ⟨rfl, rfl, rfl, rfl, rfl, fun _ => rfl⟩
    | _ => simp [Resolve.quiet] at h
  obtain ⟨k1, k2, k3, k4, k5, k6⟩ := key
  simp only [run, List.append_nil, k5]
  refine ⟨k1, k2, by omega, by omega, rfl, by simp, fun all A B _ _ => k6 all⟩

theorem RunX.quiets {es : List Ev} (h : ∀ e ∈ es, Resolve.quiet e = true) : RunX es 0 (fun _ => []) := by
  induction es with
  | nil => exact RunL.nil
  | cons e es ih => exact (RunX.quiet (h e (by simp))).append (ih fun x hx => h x (by simp [hx]))

theorem RunL.label (x : Nm) : RunL [.label x] 1 (fun n => [(x, n)]) (fun _ _ => []) := by
  intro s c ls hs hc
  simp only [run, step, List.append_nil, labelsOf, List.filterMap_cons, List.filterMap_nil, hs, List.headD_cons]
  refine ⟨trivial, trivial, Nat.le_refl _, trivial, by simp [ofScope], by simp, ?_⟩
  intro all A B _ _
  rfl

theorem RunL.goto_ (x : Nm) : RunL [.goto_ x] 0 (fun _ => []) (fun v _ => [v x]) := by
  intro s c ls hs hc
  refine ⟨rfl, rfl, Nat.le_refl _, rfl, rfl, by simp [run, step, labelsOf], ?_⟩
  intro all A B _ _
  simp [run, step, targets, visOf]

/-- Blocks: the body of a function does not see the labels around it. -/
theorem RunL.block {b : List Ev} {k : Nat} {w : Nat → List (Nm × Nat)} {g : Vis → Nat → List (Option Nat)} (fn : Bool) (h : RunL b k w g) (s : State) :
    (run s (.enter fn :: (b ++ [.leave]))).1.labs = s.labs ∧ (run s (.enter fn :: (b ++ [.leave]))).1.saved = s.saved ∧
    s.nlab < (run s (.enter fn :: (b ++ [.leave]))).1.nlab ∧ (run s (.enter fn :: (b ++ [.leave]))).1.nlabel = s.nlabel + k ∧
    (∀ v ∈ labelsOf (run s (.enter fn :: (b ++ [.leave]))).2, s.nlab ≤ v.scope ∧ v.scope < (run s (.enter fn :: (b ++ [.leave]))).1.nlab) ∧
    ∀ all A B, all = A ++ (labelsOf (run s (.enter fn :: (b ++ [.leave]))).2 ++ B) →
      (∀ v ∈ A ++ B, ¬ (s.nlab ≤ v.scope ∧ v.scope < (run s (.enter fn :: (b ++ [.leave]))).1.nlab)) →
      targets all (run s (.enter fn :: (b ++ [.leave]))).2 = g (within (if fn then nothing else visOf all s.labs) (w s.nlabel)) s.nlabel := by
  obtain ⟨h1, h2, h3, h4, h5, h6, h7⟩ := h (step s (.enter fn)).1 s.nlab (if fn then [] else s.labs) rfl (by simp [step])
  have hl : ∀ t : State, t.saved = (s.cur, s.labs) :: s.saved → step t .leave = ({ t with cur := s.cur, labs := s.labs, saved := s.saved }, []) := by
    intro t ht; simp only [step, ht]
  have hr : run s (.enter fn :: (b ++ [.leave])) =
      ({ (run (step s (.enter fn)).1 b).1 with cur := s.cur, labs := s.labs, saved := s.saved }, (run (step s (.enter fn)).1 b).2) := by
    simp only [run, run_append, List.append_nil, hl _ h2]
    simp [step]
  rw [hr]
  have e1 : (step s (.enter fn)).1.nlab = s.nlab + 1 := rfl
  have e2 : (step s (.enter fn)).1.nlabel = s.nlabel := rfl
  have e3 : (step s (.enter fn)).1.labs = s.nlab :: (if fn then [] else s.labs) := rfl
  rw [e1] at h3 h6 h7
  rw [e2] at h4 h5 h7
  rw [e3] at h7
  generalize run (step s (.enter fn)).1 b = r at *
  refine ⟨rfl, rfl, by simp only; omega, h4, ?_, ?_⟩
  · intro v hv; have := h6 v hv; simp only; omega
  · intro all A B hall hAB
    simp only at hall hAB ⊢
    rw [h7 all A B hall (fun v hv => by have := hAB v hv; omega), vis_within, hall, ofScope_append, ofScope_append, h5]
    rw [ofScope_nil (vs := A), ofScope_nil (vs := B), List.nil_append, List.append_nil]
    · cases fn <;> rfl
    · intro v hv hc; have := hAB v (List.mem_append_right _ hv); omega
    · intro v hv hc; have := hAB v (List.mem_append_left _ hv); omega

theorem RunL.blk {b : List Ev} {k : Nat} {w : Nat → List (Nm × Nat)} {g : Vis → Nat → List (Option Nat)} (h : RunL b k w g) :
    RunL (.enter false :: (b ++ [.leave])) k (fun _ => []) (fun v n => g (within v (w n)) n) := by
  intro s c ls hs hc
  obtain ⟨h1, h2, h3, h4, h5, h6⟩ := h.block false s
  exact ⟨h1, h2, by omega, h4, ofScope_nil fun v hv => by have := h5 v hv; omega, fun v hv => Or.inr (h5 v hv), h6⟩

theorem RunL.fn {b : List Ev} {k : Nat} {w : Nat → List (Nm × Nat)} {g : Vis → Nat → List (Option Nat)} (h : RunL b k w g) :
    RunX (.enter true :: (b ++ [.leave])) k (fun n => g (within nothing (w n)) n) := by
  intro s c ls hs hc
  obtain ⟨h1, h2, h3, h4, h5, h6⟩ := h.block true s
  exact ⟨h1, h2, by omega, h4, ofScope_nil fun v hv => by have := h5 v hv; omega, fun v hv => Or.inr (h5 v hv), h6⟩

theorem RunL.congr {a b : List Ev} {k k' : Nat} {w w' : Nat → List (Nm × Nat)} {g g' : Vis → Nat → List (Option Nat)} (h : RunL a k w g) (he : b = a)
    (hk : k' = k) (hw : ∀ n, w' n = w n) (hg : ∀ v n, g' v n = g v n) : RunL b k' w' g' := by
  subst he hk
  have h1 : w' = w := by funext n; exact hw n
  have h2 : g' = g := by funext v n; exact hg v n
  rw [h1, h2]; exact h

theorem RunX.congr {a b : List Ev} {k k' : Nat} {g g' : Nat → List (Option Nat)} (h : RunX a k g) (he : b = a)
    (hk : k' = k) (hg : ∀ n, g' n = g n) : RunX b k' g' := RunL.congr h he hk (fun _ => rfl) (fun _ n => hg n)

theorem quiet_map {α : Type} {f : α → Ev} (hf : ∀ x, Resolve.quiet (f x) = true) (xs : List α) : RunX (xs.map f) 0 (fun _ => []) :=
  RunX.quiets (by
    intro e he
    obtain ⟨x, _, rfl⟩ := List.mem_map.1 he
    exact hf x)

theorem quiet_ps (ps : List Param) : RunX (evPs ps) 0 (fun _ => []) := RunX.quiets (by
  intro e he
  simp only [evPs, List.mem_filterMap, Option.map_eq_some_iff] at he
  obtain ⟨p, _, x, _, rfl⟩ := he
  rfl)

theorem quiet_fn (f : FnName) : RunX (evFn f) 0 (fun _ => []) :=
  (RunX.quiet (e := .use f.base) rfl).append (quiet_map (f := fun p : Nm × Nat => Ev.member p.1 (p.2 == 0 && f.base == envName)) (fun _ => rfl)
    ((f.keys ++ f.meth.toList).zipIdx))

theorem lbody {b : List Ev} {k : Nat} {w : Nat → List (Nm × Nat)} {g : Vis → Nat → List (Option Nat)} (self : Bool) (ps : List Param) (h : RunL b k w g) :
    RunX (evHead self ps ++ (b ++ evFoot)) k (fun n => g (within nothing (w n)) n) := by
  refine (RunX.append (RunX.append (RunX.quiet (e := .newScope self) rfl) (RunX.append (quiet_ps ps) (RunX.quiet (e := .add) rfl)))
    (RunX.append h.fn (RunX.quiet (e := .close) rfl))).congr ?_ (by simp) (fun n => by simp)
  simp [evHead, evFoot]

abbrev LE (e : Ex) : Prop := RunX (evE e) (lE e) (fun n => gE n e)
abbrev LEs (e : Exs) : Prop := RunX (evEs e) (lEs e) (fun n => gEs n e)
abbrev LSrc (e : Exs) : Prop := ∀ fs, RunX (evSrc fs e) (lEs e) (fun n => gEs n e)
abbrev LIts (e : Its) : Prop := ∀ f, RunX (evIts f e) (lIts e) (fun n => gIts n e)
abbrev LS (s : St) : Prop := RunL (evS s) (lS s) (fun n => ownS n s) (fun v n => gS v n s)
abbrev LI (s : If) : Prop := RunL (evI s) (lI s) (fun _ => []) (fun v n => gI v n s)
abbrev LT (s : Tail) : Prop := RunL (evT s) (lT s) (fun _ => []) (fun v n => gT v n s)
abbrev LB (b : Block) : Prop := RunL (evB b) (lB b) (fun n => own n b) (fun v n => gB v n b)

theorem le_func (ps : List Param) {b : Block} (h : LB b) : LE (.func ps b) :=
  (lbody false ps h).congr (by simp only [evE]) (by simp [lE]) (fun n => by simp [gE])

theorem le_method {b : Ex} {x : Nm} {sh : Bool} {as : Exs} (hb : LE b) (ha : LEs as) : LE (.method b x sh as) :=
  (hb.append ((RunX.quiet (e := .member x (isEnv b)) rfl).append ha)).congr (by simp [evE]) (by simp [lE]) (fun n => by simp [gE])

theorem le_member {b : Ex} {x : Nm} (hb : LE b) : LE (.member b x) :=
  (hb.append (RunX.quiet (e := .member x (isEnv b)) rfl)).congr (by simp [evE]) (by simp [lE]) (fun n => by simp [gE])

theorem lsrc_table {its : Its} {es : Exs} (h : LIts its) (hs : LSrc es) : LSrc (.cons (.table its) es) := fun fs =>
  ((h (fs.headD false)).append (hs fs.tail)).congr (by rw [evSrc]) (by simp [lEs, lE]) (fun n => by simp [gEs, gE, lE])

theorem lsrc_cons {e : Ex} {es : Exs} (h : LE e) (hs : LSrc es) (ht : ∀ its, e ≠ .table its) : LSrc (.cons e es) := fun fs =>
  (h.append (hs fs.tail)).congr (by rw [evSrc]; exact ht) (by simp [lEs]) (fun n => by simp [gEs])

theorem ls_repeat {b : Block} {c : Ex} (hb : LB b) (hc : LE c) : LS (.repeat_ b c) :=
  (RunL.blk (RunL.append hb hc)).congr (by simp [evS]) (by simp [lS]) (fun n => by simp [ownS]) (fun v n => by simp [gS])

theorem ls_fornum {x : Nm} {a b : Ex} {c : Exs} {d : Block} (ha : LE a) (hb : LE b) (hc : LEs c) (hd : LB d) : LS (.fornum x a b c d) :=
  (RunL.append (RunX.quiets (es := [.newScope false, .tgt x]) (by simp [Resolve.quiet])) (RunL.append ha (RunL.append hb (RunL.append hc
    (RunL.append (RunX.quiet (e := .add) rfl) (RunL.append (RunL.blk hd) (RunX.quiet (e := .close) rfl))))))).congr
    (by simp [evS]) (by simp [lS, Nat.add_assoc]) (fun n => by simp [ownS]) (fun v n => by simp [gS, Nat.add_assoc])

theorem ls_forin {xs : List Nm} {es : Exs} {d : Block} (he : LEs es) (hd : LB d) : LS (.forin xs es d) :=
  (RunL.append (RunX.quiet (e := .newScope false) rfl) (RunL.append (quiet_map (f := Ev.tgt) (fun _ => rfl) xs) (RunL.append he
    (RunL.append (RunX.quiet (e := .add) rfl) (RunL.append (RunL.blk hd) (RunX.quiet (e := .close) rfl)))))).congr
    (by simp [evS]) (by simp [lS]) (fun n => by simp [ownS]) (fun v n => by simp [gS])

theorem ls_local {xs : List (Nm × Option Nm)} {es : Exs} (he : LSrc es) : LS (.local_ xs es) :=
  (RunL.append (RunX.quiet (e := .newScope false) rfl) (RunL.append (quiet_map (f := fun x : Nm × Option Nm => Ev.tgt x.1) (fun _ => rfl) xs)
    (RunL.append (he (xs.map (·.1 == envName))) (RunX.quiet (e := .add) rfl)))).congr
    (by simp [evS]) (by simp [lS]) (fun n => by simp [ownS]) (fun v n => by simp [gS])

theorem ls_localfn {x : Nm} {ps : List Param} {b : Block} (hb : LB b) : LS (.localfn x ps b) :=
  (RunL.append (RunX.quiets (es := [.newScope false, .tgt x, .add]) (by simp [Resolve.quiet])) (lbody false ps hb)).congr
    (by simp [evS]) (by simp [lS]) (fun n => by simp [ownS]) (fun v n => by simp [gS])

theorem ls_func {f : FnName} {ps : List Param} {b : Block} (hb : LB b) : LS (.func f ps b) :=
  (RunL.append (quiet_fn f) (lbody f.meth.isSome ps hb)).congr
    (by simp [evS]) (by simp [lS]) (fun n => by simp [ownS]) (fun v n => by simp [gS])

mutual
theorem lE' : ∀ e, LE e
  | .var x => (RunX.quiet (e := .use x) rfl).congr rfl rfl fun _ => rfl
  | .num _ => RunL.nil.congr rfl rfl fun _ => rfl
  | .str _ => RunL.nil.congr rfl rfl fun _ => rfl
  | .cst _ => RunL.nil.congr rfl rfl fun _ => rfl
  | .vararg => RunL.nil.congr rfl rfl fun _ => rfl
  | .func ps b => le_func ps (lB' b)
  | .group e => (lE' e).congr (by simp only [evE]) (by simp only [lE]) fun _ => by simp only [gE]
  | .un _ e => (lE' e).congr (by simp only [evE]) (by simp only [lE]) fun _ => by simp only [gE]
  | .bin _ l r => (RunX.append (lE' l) (lE' r)).congr (by simp only [evE]) (by simp only [lE]) fun _ => by simp only [gE]
  | .member b _ => le_member (lE' b)
  | .index b k => (RunX.append (lE' b) (lE' k)).congr (by simp only [evE]) (by simp only [lE]) fun _ => by simp only [gE]
  | .call b _ as => (RunX.append (lE' b) (lEs' as)).congr (by simp only [evE]) (by simp only [lE]) fun _ => by simp only [gE]
  | .method b _ _ as => le_method (lE' b) (lEs' as)
  | .table its => (lIts' its false).congr (by simp only [evE]) (by simp only [lE]) fun _ => by simp only [gE]
theorem lEs' : ∀ e, LEs e
  | .nil => RunL.nil.congr rfl rfl fun _ => rfl
  | .cons e es => (RunX.append (lE' e) (lEs' es)).congr (by simp only [evEs]) (by simp only [lEs]) fun _ => by simp only [gEs]
theorem lSrc' : ∀ e, LSrc e
  | .nil => fun fs => RunL.nil.congr (by simp only [evSrc]) rfl fun _ => rfl
  | .cons (.table its) es => lsrc_table (lIts' its) (lSrc' es)
  | .cons (.var x) es => lsrc_cons (lE' (.var x)) (lSrc' es) (by simp)
  | .cons (.num x) es => lsrc_cons (lE' (.num x)) (lSrc' es) (by simp)
  | .cons (.str x) es => lsrc_cons (lE' (.str x)) (lSrc' es) (by simp)
  | .cons (.cst x) es => lsrc_cons (lE' (.cst x)) (lSrc' es) (by simp)
  | .cons .vararg es => lsrc_cons (lE' .vararg) (lSrc' es) (by simp)
  | .cons (.func x y) es => lsrc_cons (lE' (.func x y)) (lSrc' es) (by simp)
  | .cons (.group x) es => lsrc_cons (lE' (.group x)) (lSrc' es) (by simp)
  | .cons (.un x y) es => lsrc_cons (lE' (.un x y)) (lSrc' es) (by simp)
  | .cons (.bin x y z) es => lsrc_cons (lE' (.bin x y z)) (lSrc' es) (by simp)
  | .cons (.member x y) es => lsrc_cons (lE' (.member x y)) (lSrc' es) (by simp)
  | .cons (.index x y) es => lsrc_cons (lE' (.index x y)) (lSrc' es) (by simp)
  | .cons (.call x y z) es => lsrc_cons (lE' (.call x y z)) (lSrc' es) (by simp)
  | .cons (.method x y z w) es => lsrc_cons (lE' (.method x y z w)) (lSrc' es) (by simp)
theorem lIts' : ∀ e, LIts e
  | .nil => fun _ => RunL.nil.congr (by simp only [evIts]) rfl fun _ => rfl
  | .pos e its => fun f => (RunX.append (lE' e) (lIts' its f)).congr (by simp only [evIts]) (by simp only [lIts]) fun _ => by simp only [gIts]
  | .named x e its => fun f => (RunX.append (RunX.quiet (e := .member x f) rfl) (RunX.append (lE' e) (lIts' its f))).congr (by simp [evIts])
      (by simp [lIts]) fun _ => by simp [gIts]
  | .keyed k e its => fun f => (RunX.append (lE' k) (RunX.append (lE' e) (lIts' its f))).congr (by simp only [evIts])
      (by simp only [lIts, Nat.add_assoc]) fun _ => by simp only [gIts]
theorem lS' : ∀ s, LS s
  | .do_ b => (RunL.blk (lB' b)).congr (by simp only [evS]) (by simp only [lS]) (fun _ => rfl) fun _ _ => by simp only [gS]
  | .if_ i => (lI' i).congr (by simp only [evS]) (by simp only [lS]) (fun _ => rfl) fun _ _ => by simp only [gS]
  | .while_ c b => (RunL.append (lE' c) (RunL.blk (lB' b))).congr (by simp only [evS]) (by simp only [lS]) (fun _ => rfl) fun _ _ => by simp only [gS]
  | .whileShort c b _ => (RunL.append (lE' c) (RunL.blk (lB' b))).congr (by simp only [evS]) (by simp only [lS]) (fun _ => rfl)
      fun _ _ => by simp only [gS]
  | .repeat_ b c => ls_repeat (lB' b) (lE' c)
  | .fornum _ a b c d => ls_fornum (lE' a) (lE' b) (lEs' c) (lB' d)
  | .forin _ es d => ls_forin (lEs' es) (lB' d)
  | .break_ => RunL.congr RunL.nil rfl rfl (fun _ => rfl) fun _ _ => rfl
  | .return_ es => RunL.congr (lEs' es) (by simp only [evS]) (by simp only [lS]) (fun _ => rfl) fun _ _ => by simp only [gS]
  | .local_ _ es => ls_local (lSrc' es)
  | .localfn _ _ b => ls_localfn (lB' b)
  | .goto_ x => (RunL.goto_ x).congr rfl rfl (fun _ => rfl) fun _ _ => rfl
  | .label x => (RunL.label x).congr rfl rfl (fun _ => rfl) fun _ _ => rfl
  | .func _ _ b => ls_func (lB' b)
  | .assign ts es => (RunL.append (lEs' ts) (lSrc' es (envTargets ts))).congr (by simp only [evS]) (by simp only [lS]) (fun _ => rfl)
      fun _ _ => by simp only [gS]
  | .opassign _ t e => (RunL.append (lE' t) (lE' e)).congr (by simp only [evS]) (by simp only [lS]) (fun _ => rfl) fun _ _ => by simp only [gS]
  | .call e => RunL.congr (lE' e) (by simp only [evS]) (by simp only [lS]) (fun _ => rfl) fun _ _ => by simp only [gS]
  | .print es => (RunL.append (lEs' es) (RunX.quiet (e := .print) rfl)).congr (by simp only [evS]) (by simp only [lS, Nat.add_zero])
      (fun _ => rfl) fun _ _ => by simp [gS]
theorem lI' : ∀ i, LI i
  | .long c b t => (RunL.append (lE' c) (RunL.append (RunL.blk (lB' b)) (lT' t))).congr (by simp [evI]) (by simp [lI, Nat.add_assoc]) (fun _ => rfl)
      fun _ _ => by simp [gI]
  | .short c b _ => (RunL.append (lE' c) (RunL.blk (lB' b))).congr (by simp only [evI]) (by simp only [lI]) (fun _ => rfl) fun _ _ => by simp only [gI]
  | .shortElse c b d _ => (RunL.append (lE' c) (RunL.append (RunL.blk (lB' b)) (RunL.blk (lB' d)))).congr (by simp [evI])
      (by simp [lI, Nat.add_assoc]) (fun _ => rfl) fun _ _ => by simp [gI]
theorem lT' : ∀ t, LT t
  | .end_ => RunL.congr RunL.nil rfl rfl (fun _ => rfl) fun _ _ => rfl
  | .else_ b => (RunL.blk (lB' b)).congr (by simp only [evT]) (by simp only [lT]) (fun _ => rfl) fun _ _ => by simp only [gT]
  | .elseif_ i => (lI' i).congr (by simp only [evT]) (by simp only [lT]) (fun _ => rfl) fun _ _ => by simp only [gT]
theorem lB' : ∀ b, LB b
  | .nil => RunL.congr RunL.nil rfl rfl (fun _ => rfl) fun _ _ => rfl
  | .semi b => (lB' b).congr (by simp only [evB]) (by simp only [lB]) (fun _ => by simp only [own]) (fun _ _ => by simp only [gB])
  | .cons s b => (RunL.append (lS' s) (lB' b)).congr (by simp only [evB]) (by simp only [lB]) (fun _ => by simp only [own])
      fun _ _ => by simp only [gB]
end

/-- All `goto`s of a program. -/
theorem targets_root (lb : List Nm) (b : Block) : targets (labelsOf (nodes lb b)) (nodes lb b) = LuaLabels.program b := by
  obtain ⟨_, _, _, _, _, h6⟩ := (lB' b).block true (start lb)
  exact h6 _ [] [] (by simp [nodes, evRoot]) (by simp)

end Verif.Resolve
