import Verif.RenameTreeSub
/-
Resolving the names of a renamed program goes in step with resolving those of the original one.
-/
namespace Verif.Resolve
open Syntax

section
variable (nu : RVar → Nm) (om : Node → Nm)

/-- A variable with its new name. -/
def renV (v : RVar) : RVar := { v with name := nu v }

def renF (f : Frame) : Frame := ⟨f.id, f.vars.map (renV nu)⟩

def renFs (fs : List Frame) : List Frame := fs.map (renF nu)

def renRef : Ref → Ref
  | .bind v => .bind (renV nu v)
  | .loc v => .loc (renV nu v)
  | .glob env => .glob (env.map (renV nu))
  | .mem f => .mem f
  | .label v => .label (renV nu v)
  | .goto_ => .goto_

def renNode (n : Node) : Node := ⟨om n, n.imp, renRef nu n.ref, n.chain⟩

def renS (s : State) : State :=
  { s with
    cur := renFs nu s.cur
    pend := s.pend.map fun p => (renF nu p.1, renFs nu p.2)
    saved := s.saved.map fun p => (renFs nu p.1, p.2) }

/-- The new names keep what a node refers to. -/
def Good (D : List RVar) (n : Node) : Prop :=
  (n.imp = true → om n = n.name) ∧
  match n.ref with
  | .bind v => om n = nu v
  | .loc v => findIn (om n) (renFs nu (framesOf D n.chain)) = some (renV nu v)
  | .glob env => findIn (om n) (renFs nu (framesOf D n.chain)) = none ∧ findIn envName (renFs nu (framesOf D n.chain)) = env.map (renV nu)
  | .mem _ => True
  | .label v => om n = nu v
  | .goto_ => True

variable {nu om}

theorem ids_ren (fs : List Frame) : ids (renFs nu fs) = ids fs := by simp [ids, renFs, renF, Function.comp_def]

theorem use_ren {s : State} {D : List RVar} (hf : framesOf D (ids s.cur) = s.cur) (x : Nm) (i : Bool) (hg : Good nu om D (useNode s x i)) :
    useNode (renS nu s) (om (useNode s x i)) i = renNode nu om (useNode s x i) := by
  unfold useNode at *
  cases hx : findIn x s.cur with
  | some v =>
    simp only [hx, Good, hf] at hg ⊢
    simp only [renS, hg.2, ids_ren, renNode, renRef]
  | none =>
    simp only [hx, Good, hf] at hg ⊢
    simp only [renS, hg.2.1, hg.2.2, ids_ren, renNode, renRef]

theorem step_ren {s : State} {D : List RVar} (hf : framesOf D (ids s.cur) = s.cur) (e : Ev) (hg : ∀ n ∈ (step s e).2, Good nu om D n) (rest : List Nm) :
    step (renS nu s) (put ((step s e).2.map om ++ rest) e) = (renS nu (step s e).1, (step s e).2.map (renNode nu om)) := by
  cases e with
  | enter fn => simp only [put, step, renS, List.map_cons, List.map_nil]
  | leave =>
    simp only [put, step]
    cases hs : s.saved with
    | nil => simp only [renS, hs, List.map_nil]
    | cons p r => simp only [renS, hs, List.map_cons, List.map_nil]
  | newScope f =>
    cases f
    · simp only [put, step, renS, List.map_cons, List.map_nil, renF, ids_ren]
    · have := hg _ (by simp only [step]; exact List.mem_singleton.2 rfl)
      simp only [Good] at this
      have h1 := this.1 trivial
      rw [this.2] at h1
      have h2 := this.2
      simp only [put, step, renS, List.map_cons, List.map_nil, renF, ids_ren, renNode, renRef, renV, h1, h2]
  | add =>
    simp only [put, step]
    cases hs : s.pend with
    | nil => simp only [renS, hs, List.map_nil]
    | cons p r => simp only [renS, hs, List.map_cons, List.map_nil, renFs]
  | close => simp only [put, step, renS, List.map_nil, renFs, List.map_tail]
  | tgt x =>
    simp only [step] at hg ⊢
    cases hs : s.pend with
    | nil => cases hr : (List.map om ([] : List Node) ++ rest).headD x <;> simp only [hs, put, renS, List.map_nil]
    | cons p r =>
      simp only [hs] at hg
      have h := hg _ (List.mem_singleton.2 rfl)
      simp only [Good] at h
      simp only [hs, put, renS, List.map_cons, List.map_nil, List.cons_append, List.headD_cons, renF, ids_ren, renNode, renRef, renV, h.2]
  | use x =>
    have := use_ren hf x false (hg _ (by simp [step]))
    simp only [put, step, List.map_cons, List.map_nil, List.cons_append, List.headD_cons, this]
  | print =>
    have hgn := hg _ (by simp only [step]; exact List.mem_singleton.2 rfl)
    have := use_ren hf printName true hgn
    have hn : om (useNode s printName true) = printName := by
      have h1 := hgn.1
      unfold useNode at h1 ⊢
      cases hx : findIn printName s.cur <;> simp only [hx] at h1 ⊢ <;> exact h1 trivial
    rw [hn] at this
    simp only [put, step, List.map_cons, List.map_nil, this]
  | member x f => simp only [put, step, List.map_cons, List.map_nil, List.cons_append, List.headD_cons, renNode, renRef]
  | label x =>
    have := hg _ (by simp only [step]; exact List.mem_singleton.2 rfl)
    simp only [Good] at this
    simp only [put, step, List.map_cons, List.map_nil, List.cons_append, List.headD_cons, renNode, renRef, renV, renS, this.2]
  | goto_ x => simp only [put, step, List.map_cons, List.map_nil, List.cons_append, List.headD_cons, renNode, renRef, renS]

/-- Every event that makes a node takes one name; only in the middle of nowhere (no scope is pending) a target makes none. -/
def Sound : State → List Ev → Prop
  | _, [] => True
  | s, e :: es => (step s e).2.length = takes [e] ∧ Sound (step s e).1 es

theorem run_ren : ∀ (es : List Ev) {s : State} {O : List RVar}, Inv s O → Sound s es →
    (∀ n ∈ (run s es).2, Good nu om (O ++ declsOf (run s es).2) n) → ∀ rest,
    run (renS nu s) (subst ((run s es).2.map om ++ rest) es) = (renS nu (run s es).1, (run s es).2.map (renNode nu om))
  | [], _, _, _, _, _, _ => by simp [run, subst]
  | e :: es, s, O, h, hs, hg, rest => by
    have hdec : (run s (e :: es)).2 = (step s e).2 ++ (run (step s e).1 es).2 := rfl
    have h1 := step_ren (nu := nu) (om := om) (cur_final h (run_decls (e :: es) s)) e
      (fun n hn => hg n (by rw [hdec]; exact List.mem_append_left _ hn)) ((run (step s e).1 es).2.map om ++ rest)
    have h2 := run_ren es (h.step e) hs.2 (fun n hn => by
      have := hg n (by rw [hdec]; exact List.mem_append_right _ hn)
      rwa [hdec, declsOf_append, ← List.append_assoc] at this) rest
    simp only [subst, run, List.map_append, List.append_assoc, h1]
    have hdrop : List.drop (takes [e]) ((step s e).2.map om ++ ((run (step s e).1 es).2.map om ++ rest)) = (run (step s e).1 es).2.map om ++ rest := by
      rw [← hs.1]
      exact List.drop_left' (by simp)
    simp only [hdrop, h2]

end

/-! Targets only come while a scope is pending. -/

/-- With `d` scopes pending, every target has one. -/
def Bal : Nat → List Ev → Prop
  | _, [] => True
  | d, .newScope _ :: es => Bal (d + 1) es
  | d, .tgt _ :: es => d ≠ 0 ∧ Bal d es
  | d, .add :: es => d ≠ 0 ∧ Bal (d - 1) es
  | d, .enter _ :: es | d, .leave :: es | d, .close :: es | d, .use _ :: es | d, .print :: es | d, .member _ _ :: es | d, .label _ :: es
  | d, .goto_ _ :: es => Bal d es

theorem Bal.sound : ∀ {es : List Ev} {s : State}, Bal s.pend.length es → Sound s es
  | [], _, _ => trivial
  | e :: es, s, h => by
    cases e with
    | newScope f => cases f <;> exact ⟨rfl, Bal.sound (by simpa [Bal, step] using h)⟩
    | tgt x =>
      simp only [Bal] at h
      cases hs : s.pend with
      | nil => simp [hs] at h
      | cons p r =>
        simp only [Sound, step, hs]
        exact ⟨rfl, Bal.sound (by simpa [hs] using h)⟩
    | add =>
      simp only [Bal] at h
      cases hs : s.pend with
      | nil => simp [hs] at h
      | cons p r =>
        simp only [Sound, step, hs]
        exact ⟨rfl, Bal.sound (by simpa [hs] using h)⟩
    | leave =>
      simp only [Bal] at h
      cases hs : s.saved with
      | nil => simp only [Sound, step, hs]; exact ⟨rfl, Bal.sound h⟩
      | cons p r => simp only [Sound, step, hs]; exact ⟨rfl, Bal.sound (by simpa using h)⟩
    | _ => exact ⟨rfl, Bal.sound (by simpa [Bal, step] using h)⟩

/-- Events after which the same number of scopes is pending. -/
def Neutral (es : List Ev) : Prop := ∀ d rest, Bal d rest → Bal d (es ++ rest)

theorem Neutral.append {a b : List Ev} (h : Neutral a) (h' : Neutral b) : Neutral (a ++ b) := fun d rest hr => by
  rw [List.append_assoc]; exact h d _ (h' d _ hr)

theorem bal_tgts (f : α → Nm) : ∀ (xs : List α) (d : Nat) (rest : List Ev), Bal (d + 1) rest → Bal (d + 1) (xs.map (fun x => Ev.tgt (f x)) ++ rest)
  | [], _, _, h => h
  | x :: xs, d, rest, h => ⟨by omega, bal_tgts f xs d rest h⟩

theorem bal_ps : ∀ (ps : List Param) (d : Nat) (rest : List Ev), Bal (d + 1) rest → Bal (d + 1) (evPs ps ++ rest)
  | [], _, _, h => h
  | none :: ps, d, rest, h => by simpa [evPs] using bal_ps ps d rest h
  | some x :: ps, d, rest, h => by
    have := bal_ps ps d rest h
    simp only [evPs, List.filterMap_cons, Option.map_some, List.cons_append, Bal]
    exact ⟨by omega, this⟩

theorem neutral_fn {self : Bool} {ps : List Param} {b : List Ev} (h : Neutral b) : Neutral (evHead self ps ++ (b ++ evFoot)) := by
  intro d rest hr
  simp only [evHead, evFoot, List.cons_append, List.append_assoc, List.nil_append, Bal]
  exact bal_ps ps d _ ⟨by omega, h d _ hr⟩

theorem neutral_keys (f : Bool) : ∀ (xs : List Nm) (i : Nat), Neutral (evKeys f i xs)
  | [], _ => fun _ _ h => h
  | x :: xs, i => fun d rest h => neutral_keys f xs (i + 1) d rest h

mutual
theorem neuE : ∀ e, Neutral (evE e)
  | .var _ => fun _ _ h => by simpa only [evE, List.cons_append, List.nil_append, Bal] using h
  | .num _ => fun _ _ h => by simpa only [evE, List.nil_append] using h
  | .str _ => fun _ _ h => by simpa only [evE, List.nil_append] using h
  | .cst _ => fun _ _ h => by simpa only [evE, List.nil_append] using h
  | .vararg => fun _ _ h => by simpa only [evE, List.nil_append] using h
  | .func ps b => by rw [evE]; exact neutral_fn (neuB b)
  | .group e => by rw [evE]; exact neuE e
  | .un _ e => by rw [evE]; exact neuE e
  | .bin _ l r => by rw [evE]; exact (neuE l).append (neuE r)
  | .member b x => by rw [evE]; exact (neuE b).append fun _ _ h => h
  | .index b k => by rw [evE]; exact (neuE b).append (neuE k)
  | .call b _ as => by rw [evE]; exact (neuE b).append (neuEs as)
  | .method b x _ as => by rw [evE]; exact (neuE b).append fun d rest h => neuEs as d rest h
  | .table its => by rw [evE]; exact neuIts its false
theorem neuEs : ∀ e, Neutral (evEs e)
  | .nil => by rw [evEs]; exact fun _ _ h => h
  | .cons e es => by rw [evEs]; exact (neuE e).append (neuEs es)
theorem neuSrc : ∀ e fs, Neutral (evSrc fs e)
  | .nil, fs => by rw [evSrc]; exact fun _ _ h => h
  | .cons (.table its) es, fs => by rw [evSrc]; exact (neuIts its _).append (neuSrc es _)
  | .cons (.var x) es, fs => by rw [notTable (by simp)]; exact (neuE (.var x)).append (neuSrc es _)
  | .cons (.num x) es, fs => by rw [notTable (by simp)]; exact (neuE (.num x)).append (neuSrc es _)
  | .cons (.str x) es, fs => by rw [notTable (by simp)]; exact (neuE (.str x)).append (neuSrc es _)
  | .cons (.cst x) es, fs => by rw [notTable (by simp)]; exact (neuE (.cst x)).append (neuSrc es _)
  | .cons .vararg es, fs => by rw [notTable (by simp)]; exact (neuE .vararg).append (neuSrc es _)
  | .cons (.func ps b) es, fs => by rw [notTable (by simp)]; exact (neuE (.func ps b)).append (neuSrc es _)
  | .cons (.group e) es, fs => by rw [notTable (by simp)]; exact (neuE (.group e)).append (neuSrc es _)
  | .cons (.un o e) es, fs => by rw [notTable (by simp)]; exact (neuE (.un o e)).append (neuSrc es _)
  | .cons (.bin o e f) es, fs => by rw [notTable (by simp)]; exact (neuE (.bin o e f)).append (neuSrc es _)
  | .cons (.member e x) es, fs => by rw [notTable (by simp)]; exact (neuE (.member e x)).append (neuSrc es _)
  | .cons (.index e f) es, fs => by rw [notTable (by simp)]; exact (neuE (.index e f)).append (neuSrc es _)
  | .cons (.call e s f) es, fs => by rw [notTable (by simp)]; exact (neuE (.call e s f)).append (neuSrc es _)
  | .cons (.method e x s f) es, fs => by rw [notTable (by simp)]; exact (neuE (.method e x s f)).append (neuSrc es _)
theorem neuIts : ∀ e f, Neutral (evIts f e)
  | .nil, f => by rw [evIts]; exact fun _ _ h => h
  | .pos e its, f => by rw [evIts]; exact (neuE e).append (neuIts its f)
  | .named x e its, f => by rw [evIts]; exact fun d rest h => ((neuE e).append (neuIts its f)) d rest h
  | .keyed k e its, f => by rw [evIts]; exact (neuE k).append ((neuE e).append (neuIts its f))
theorem neuS : ∀ e, Neutral (evS e)
  | .do_ b => by rw [evS]; exact fun d rest h => ((neuB b).append (b := [.leave]) fun _ _ h => h) d rest h
  | .if_ i => by rw [evS]; exact neuI i
  | .while_ c b => by rw [evS]; exact (neuE c).append fun d rest h => ((neuB b).append (b := [.leave]) fun _ _ h => h) d rest h
  | .whileShort c b _ => by rw [evS]; exact (neuE c).append fun d rest h => ((neuB b).append (b := [.leave]) fun _ _ h => h) d rest h
  | .repeat_ b c => by rw [evS]; exact fun d rest h => ((neuB b).append ((neuE c).append (b := [.leave]) fun _ _ h => h)) d rest h
  | .fornum x a b c d => by
    rw [evS]
    intro k rest h
    have : Bal (k + 1) (Ev.add :: .enter false :: ((evB d ++ [.leave, .close]) ++ rest)) := by
      simp only [List.append_assoc, List.cons_append, List.nil_append, Bal]
      exact ⟨by omega, neuB d _ _ h⟩
    have h2 := ((neuE a).append ((neuE b).append (neuEs c))) _ _ this
    simpa [Bal] using h2
  | .forin xs es d => by
    rw [evS]
    intro k rest h
    have : Bal (k + 1) (Ev.add :: .enter false :: ((evB d ++ [.leave, .close]) ++ rest)) := by
      simp only [List.append_assoc, List.cons_append, List.nil_append, Bal]
      exact ⟨by omega, neuB d _ _ h⟩
    have h2 := bal_tgts id xs _ _ (neuEs es _ _ this)
    simpa [Bal] using h2
  | .break_ => by rw [evS]; exact fun _ _ h => h
  | .return_ es => by rw [evS]; exact neuEs es
  | .local_ xs es => by
    rw [evS]
    intro k rest h
    have : Bal (k + 1) (Ev.add :: rest) := ⟨by omega, h⟩
    have h2 := bal_tgts (·.1) xs _ _ (neuSrc es (xs.map (·.1 == envName)) _ _ this)
    simpa [Bal] using h2
  | .localfn x ps b => by
    rw [evS]
    exact fun d rest h => ⟨by omega, by omega, (neutral_fn (self := false) (ps := ps) (neuB b)) d rest h⟩
  | .goto_ x => by rw [evS]; exact fun _ _ h => h
  | .label x => by rw [evS]; exact fun _ _ h => h
  | .func f ps b => by
    rw [evS]
    refine Neutral.append (fun d rest h => ?_) (neutral_fn (neuB b))
    rw [evFn, evKeys_eq]
    exact neutral_keys _ _ _ d rest h
  | .assign ts es => by rw [evS]; exact (neuEs ts).append (neuSrc es _)
  | .opassign _ t e => by rw [evS]; exact (neuE t).append (neuE e)
  | .call e => by rw [evS]; exact neuE e
  | .print es => by rw [evS]; exact (neuEs es).append fun _ _ h => h
theorem neuI : ∀ e, Neutral (evI e)
  | .long c b t => by
    rw [evI]
    refine (neuE c).append fun d rest h => ?_
    have := ((neuB b).append (b := Ev.leave :: evT t) fun d rest h => neuT t d rest h) d rest h
    exact this
  | .short c b _ => by rw [evI]; exact (neuE c).append fun d rest h => ((neuB b).append (b := [.leave]) fun _ _ h => h) d rest h
  | .shortElse c b e _ => by
    rw [evI]
    refine (neuE c).append fun d rest h => ?_
    have h1 : Bal d (evB e ++ [.leave] ++ rest) := ((neuB e).append (b := [.leave]) fun _ _ h => h) d rest h
    have h2 : Bal d (evB b ++ Ev.leave :: .enter false :: (evB e ++ [.leave] ++ rest)) := neuB b d _ h1
    simpa [Bal] using h2
theorem neuT : ∀ e, Neutral (evT e)
  | .end_ => by rw [evT]; exact fun _ _ h => h
  | .else_ b => by rw [evT]; exact fun d rest h => ((neuB b).append (b := [.leave]) fun _ _ h => h) d rest h
  | .elseif_ i => by rw [evT]; exact neuI i
theorem neuB : ∀ e, Neutral (evB e)
  | .nil => by rw [evB]; exact fun _ _ h => h
  | .semi b => by rw [evB]; exact neuB b
  | .cons s b => by rw [evB]; exact (neuS s).append (neuB b)
end

theorem root_sound (lb : List Nm) (b : Block) : Sound (start lb) (evRoot b) := by
  refine Bal.sound ?_
  have := ((neuB b).append (b := [.leave]) fun _ _ h => h) (start lb).pend.length [] trivial
  simpa [evRoot, Bal] using this

end Verif.Resolve
