import Verif.MergeTreePairs
import Verif.ElabScoped
import Mathlib.Data.List.Forall2
/-
Helpers for C80: the tree with merged declarations stands for the merged program, up to the numbers of variables.
-/
namespace Verif.Elab.Mt
open Syntax LuaScope
open Paren (Op)
open Core (Merge usesEs usesBl usesTs renEs renBl renTs mergedEs mergedBl mergedTs)

variable {S : Sem} {o : Merge} {f : Nat → Nat} {code : Nm → Nat}

/-- What `f` has to leave alone. -/
structure FOk (g : Nat) (f : Nat → Nat) : Prop where
  lt : ∀ x, x < g → f x = x
  ge : ∀ x, g ≤ x → g ≤ f x

/-! ### Environments -/

/-- The names mean the same, as far as the variables in `U` go. -/
def Looks (S : Sem) (f : Nat → Nat) (U : List Nat) (env env' : Env) : Prop :=
  ∀ x, (∀ m, look env x = some m → (m < S.given ∨ m ∈ U) → look env' x = some (f m)) ∧ (look env x = none → look env' x = none)

theorem Looks.mono {U V : List Nat} {env env' : Env} (h : Looks S f U env env') (hv : ∀ x ∈ V, x ∈ U) : Looks S f V env env' :=
  fun x => ⟨fun m hm hu => (h x).1 m hm (hu.imp_right (hv m)), (h x).2⟩

theorem Looks.l {U V : List Nat} {env env' : Env} (h : Looks S f (U ++ V) env env') : Looks S f U env env' := h.mono fun _ hx => List.mem_append_left _ hx
theorem Looks.r {U V : List Nat} {env env' : Env} (h : Looks S f (U ++ V) env env') : Looks S f V env env' := h.mono fun _ hx => List.mem_append_right _ hx

theorem look_cons (x y : Nm) (n : Nat) (env : Env) : look ((y, n) :: env) x = if y = x then some n else look env x := by
  simp only [look, List.find?_cons]
  by_cases h : y = x
  · subst h; simp
  · rw [if_neg h]
    have : (y == x) = false := by simpa using h
    rw [this]

theorem Looks.cons {U : List Nat} {env env' : Env} (h : Looks S f U env env') (y : Nm) (n : Nat) : Looks S f U ((y, n) :: env) ((y, f n) :: env') := by
  intro x
  rw [look_cons, look_cons]
  by_cases e : y = x
  · rw [if_pos e, if_pos e]
    exact ⟨fun m hm _ => by cases hm; rfl, nofun⟩
  · rw [if_neg e, if_neg e]
    exact h x

/-- Further declarations, with these numbers. -/
def bindN (env : Env) : List Nm → List Nat → Env
  | x :: xs, m :: ms => bindN ((x, m) :: env) xs ms
  | _, _ => env

theorem bind_bindN : ∀ (xs : List Nm) (env : Env) (n : Nat), bind env n xs = bindN env xs (List.range' n xs.length)
  | [], _, _ => rfl
  | x :: xs, env, n => by simp only [LuaScope.bind, List.length_cons, List.range'_succ, Mt.bindN]; exact bind_bindN xs _ _

theorem Looks.bindN {U : List Nat} : ∀ (xs : List Nm) (ms : List Nat) {env env' : Env}, Looks S f U env env' → Looks S f U (bindN env xs ms) (bindN env' xs (ms.map f))
  | [], _, _, _, h => h
  | _ :: _, [], _, _, h => h
  | x :: xs, m :: ms, _, _, h => Looks.bindN xs ms (h.cons x m)

theorem Looks.bind {U : List Nat} {env env' : Env} (h : Looks S f U env env') (xs : List Nm) (n n' : Nat)
    (hf : List.range' n' xs.length = (List.range' n xs.length).map f) : Looks S f U (bind env n xs) (bind env' n' xs) := by
  rw [bind_bindN, bind_bindN, hf]
  exact h.bindN xs _

theorem bindN_append : ∀ (a : List Nm) (A : List Nat) (b : List Nm) (B : List Nat) (env : Env), a.length = A.length →
    bindN env (a ++ b) (A ++ B) = bindN (bindN env a A) b B
  | [], [], _, _, _, _ => rfl
  | [], _ :: _, _, _, _, h => by simp at h
  | _ :: _, [], _, _, _, h => by simp at h
  | x :: a, m :: A, b, B, env, h => bindN_append a A b B _ (by simpa using h)

theorem look_bindN : ∀ (xs : List Nm) (ms : List Nat) (env : Env) (x : Nm), look (bindN env xs ms) x = (look (bindN [] xs ms) x).or (look env x)
  | [], _, _, _ => rfl
  | _ :: _, [], _, _ => rfl
  | y :: xs, m :: ms, env, x => by
    simp only [bindN]
    rw [look_bindN xs ms ((y, m) :: env), look_bindN xs ms [(y, m)], look_cons, look_cons]
    cases look (bindN [] xs ms) x <;> by_cases e : y = x <;> simp [e, look]

theorem look_bindN_mem : ∀ (xs : List Nm) (ms : List Nat) (x : Nm) (m : Nat), look (bindN [] xs ms) x = some m → x ∈ xs ∧ m ∈ ms
  | [], _, _, _, h => by simp [bindN, look] at h
  | _ :: _, [], _, _, h => by simp [bindN, look] at h
  | y :: xs, k :: ms, x, m, h => by
    simp only [bindN] at h
    rw [look_bindN] at h
    cases e : look (bindN [] xs ms) x with
    | some a =>
      rw [e] at h
      have := look_bindN_mem xs ms x a e
      simp only [Option.some_or, Option.some.injEq] at h
      subst h
      exact ⟨List.mem_cons_of_mem _ this.1, List.mem_cons_of_mem _ this.2⟩
    | none =>
      rw [e, look_cons] at h
      by_cases hy : y = x
      · rw [if_pos hy] at h
        simp only [Option.none_or, Option.some.injEq] at h
        exact ⟨by simp [hy], by simp [h]⟩
      · rw [if_neg hy] at h; simp [look] at h

def EqL (env env' : Env) : Prop := ∀ x, look env x = look env' x

theorem EqL.bindN {env env' : Env} (h : EqL env env') (xs : List Nm) (ms : List Nat) : EqL (bindN env xs ms) (bindN env' xs ms) := by
  intro x
  rw [look_bindN, look_bindN xs ms env', h x]

theorem EqL.looks {U : List Nat} {env env1 env' : Env} (h : EqL env1 env) (hl : Looks S f U env1 env') : Looks S f U env env' := by
  intro x
  rw [← h x]
  exact hl x

theorem bindN_comm (env : Env) (xs : List Nm) (ms : List Nat) (ys : List Nm) (ks : List Nat) (h : ∀ x ∈ xs, x ∉ ys) :
    EqL (bindN (bindN env xs ms) ys ks) (bindN (bindN env ys ks) xs ms) := by
  intro x
  rw [look_bindN ys ks, look_bindN xs ms env, look_bindN xs ms (bindN env ys ks), look_bindN ys ks env]
  cases e1 : look (bindN [] xs ms) x with
  | none => rfl
  | some a => cases e2 : look (bindN [] ys ks) x with
    | none => rfl
    | some b => exact absurd (look_bindN_mem _ _ _ _ e2).1 (h x (look_bindN_mem _ _ _ _ e1).1)

/-! ### Names -/

variable (hf : FOk S.given f)

theorem numeral_merged : ∀ v : Num, (numeral S v).merged o = numeral S v
  | .lit _ => rfl
  | .prim _ => rfl
  | .sgn u n => by simp only [numeral, Core.Ex.merged, numeral_merged n]

theorem numeral_ren : ∀ v : Num, (numeral S v).ren f = numeral S v
  | .lit _ => rfl
  | .prim _ => rfl
  | .sgn u n => by simp only [numeral, Core.Ex.ren, numeral_ren n]

theorem global_merged (env : Env) (x : Nm) : (global S env x).merged o = global S env x := by
  simp only [global]
  split
  · split <;> rfl
  · rfl

theorem name_merged (env : Env) (x : Nm) : (name S env x).merged o = name S env x := by
  simp only [name]
  split
  · simp only [ref]; split <;> rfl
  · exact global_merged env x

theorem target_merged (env : Env) (x : Nm) : (target S env x).merged o = target S env x := by
  simp only [target]
  split
  · split <;> rfl
  · split
    · split <;> rfl
    · rfl

include hf

theorem global_ren {env env' : Env} {x : Nm} (h : Looks S f (global S env x).uses env env') : global S env' x = (global S env x).ren f := by
  have h2 := h (nm "_ENV")
  simp only [global] at h2 ⊢
  cases e : look env (nm "_ENV") with
  | none => rw [h2.2 e]; rfl
  | some m =>
    rw [e] at h2
    simp only at h2 ⊢
    by_cases hm : m < S.given
    · rw [h2.1 m rfl (.inl hm)]
      simp only [hf.lt m hm, if_pos hm]; rfl
    · rw [if_neg hm] at h2
      rw [h2.1 m rfl (.inr (by simp [Core.Ex.uses, usesEs]))]
      have := hf.ge m (by omega)
      simp only [if_neg hm, if_neg (show ¬ f m < S.given by omega)]; rfl

theorem name_ren {env env' : Env} {x : Nm} (h : Looks S f (name S env x).uses env env') : name S env' x = (name S env x).ren f := by
  have h2 := h x
  simp only [name] at h2 h ⊢
  cases e : look env x with
  | none =>
    rw [e] at h
    rw [h2.2 e]
    exact global_ren hf h
  | some m =>
    rw [e] at h2
    simp only [ref] at h2 ⊢
    by_cases hm : m < S.given
    · rw [h2.1 m rfl (.inl hm)]
      simp only [hf.lt m hm, if_pos hm]; rfl
    · rw [if_neg hm] at h2
      rw [h2.1 m rfl (.inr (by simp [Core.Ex.uses]))]
      have := hf.ge m (by omega)
      simp only [if_neg hm, if_neg (show ¬ f m < S.given by omega)]; rfl

theorem target_ren {env env' : Env} {x : Nm} (h : Looks S f (target S env x).uses env env') : target S env' x = (target S env x).ren f := by
  have h2 := h x
  have h3 := h (nm "_ENV")
  simp only [target] at h2 h3 ⊢
  cases e : look env x with
  | none =>
    rw [e] at h3
    rw [h2.2 e]
    simp only at h3 ⊢
    cases e' : look env (nm "_ENV") with
    | none => rw [h3.2 e']; rfl
    | some m =>
      rw [e'] at h3
      simp only at h3 ⊢
      by_cases hm : m < S.given
      · rw [h3.1 m rfl (.inl hm)]
        simp only [hf.lt m hm, if_pos hm]; rfl
      · rw [if_neg hm] at h3
        rw [h3.1 m rfl (.inr (by simp [Core.Tg.uses, Core.Ex.uses, usesEs]))]
        have := hf.ge m (by omega)
        simp only [if_neg hm, if_neg (show ¬ f m < S.given by omega)]; rfl
  | some m =>
    rw [e] at h2
    simp only at h2 ⊢
    by_cases hm : m < S.given
    · rw [h2.1 m rfl (.inl hm)]
      simp only [hf.lt m hm, if_pos hm]; rfl
    · rw [if_neg hm] at h2
      rw [h2.1 m rfl (.inr (by simp [Core.Tg.uses]))]
      have := hf.ge m (by omega)
      simp only [if_neg hm, if_neg (show ¬ f m < S.given by omega)]; rfl

theorem own_looks {env env' : Env} (h : Looks S f [] env env') (h1 : ownEnv S env = true) : ownEnv S env' = true := by
  have h2 := h (nm "_ENV")
  simp only [ownEnv] at h1 ⊢
  cases e : look env (nm "_ENV") with
  | none => rw [h2.2 e]
  | some m =>
    rw [e] at h1
    have hm : m < S.given := of_decide_eq_true h1
    rw [h2.1 m e (.inl hm), hf.lt m hm]
    exact h1

/-- A builtin function stays one. -/
theorem builtin_some {env env' : Env} (h : Looks S f [] env env') (n : Nat) : ∀ (e : Ex) {b}, builtinOf S env e = some b → builtinOf S env' (mE S o env n e) = some b
  | .var x, b, hb => by
    simp only [builtinOf, mE] at hb ⊢
    by_cases hc : look env x = none ∧ ownEnv S env = true
    · rw [if_pos hc] at hb
      rw [if_pos ⟨(h x).2 hc.1, own_looks hf h hc.2⟩, hb]
    · rw [if_neg hc] at hb; cases hb
  | .group e, b, hb => by simp only [builtinOf, mE] at hb ⊢; exact builtin_some h n e hb
  | .un _ _, _, h | .num _, _, h | .str _, _, h | .cst _, _, h | .vararg, _, h | .func _ _, _, h | .bin _ _ _, _, h | .member _ _, _, h
  | .index _ _, _, h | .call _ _ _, _, h | .method _ _ _ _, _, h | .table _, _, h => by simp only [builtinOf, reduceCtorEq] at h

theorem not_own_looks {env env' : Env} {x : Nm} (h : Looks S f (global S env x).uses env env') (h1 : ownEnv S env = false) : ownEnv S env' = false := by
  have h2 := h (nm "_ENV")
  simp only [ownEnv, global] at h1 h2 ⊢
  cases e : look env (nm "_ENV") with
  | none => rw [e] at h1; simp at h1
  | some m =>
    rw [e] at h1 h2
    have hm : ¬m < S.given := of_decide_eq_false h1
    simp only [if_neg hm] at h2
    rw [h2.1 m rfl (.inr (by simp [Core.Ex.uses, usesEs]))]
    have := hf.ge m (by omega)
    exact decide_eq_false (by omega)

theorem builtin_none {env env' : Env} (n k : Nat) : ∀ (e : Ex), Looks S f (((eE S env n e).merged o).uses) env env' → builtinOf S env e = none →
    builtinOf S env' (mE S o env k e) = none
  | .var x, h, hb => by
    simp only [builtinOf, mE] at hb ⊢
    simp only [eE, name_merged] at h
    by_cases hc : look env x = none
    · by_cases ho : ownEnv S env = true
      · rw [if_pos ⟨hc, ho⟩] at hb
        rw [hb]
        split <;> rfl
      · rw [if_neg]
        simp only [name, hc] at h
        simp [not_own_looks hf h (by simpa using ho)]
    · rw [if_neg]
      cases e : look env x with
      | none => exact absurd e hc
      | some m =>
        have := (h x).1 m e (by
          by_cases hm : m < S.given
          · exact .inl hm
          · exact .inr (by simp [name, e, ref, hm, Core.Ex.uses]))
        rw [this]
        simp
  | .group e, h, hb => by
    simp only [builtinOf, mE] at hb ⊢
    exact builtin_none n k e h hb
  | .un _ _, _, h | .num _, _, h | .str _, _, h | .cst _, _, h | .vararg, _, h | .func _ _, _, h | .bin _ _ _, _, h | .member _ _, _, h
  | .index _ _, _, h | .call _ _ _, _, h | .method _ _ _ _, _, h | .table _, _, h => rfl

omit hf

theorem opBin_merged (u : Op) (l r : Core.Ex) : (opBin S u l r).merged o = opBin S u (l.merged o) (r.merged o) := by
  simp only [opBin]; split <;> rfl
theorem opBin_ren (u : Op) (l r : Core.Ex) : (opBin S u l r).ren f = opBin S u (l.ren f) (r.ren f) := by
  simp only [opBin]; split <;> rfl
theorem opBin_uses (u : Op) (l r : Core.Ex) : (opBin S u l r).uses = l.uses ++ r.uses := by
  simp only [opBin]; split <;> simp [Core.Ex.uses, usesEs]
theorem opBin_k (u : Op) (l r l' r' : Core.Ex) : kEx (opBin S u l r) (opBin S u l' r') = kEx l l' ++ kEx r r' := by
  simp only [opBin]; split <;> simp [kEx, kEs]

theorem chain_merged : ∀ (xs : List Nm) (e : Core.Ex), (chain S e xs).merged o = chain S (e.merged o) xs
  | [], _ => rfl
  | x :: xs, e => by simp only [chain, chain_merged xs, Core.Ex.merged, mergedEs]
theorem chain_ren : ∀ (xs : List Nm) (e : Core.Ex), (chain S e xs).ren f = chain S (e.ren f) xs
  | [], _ => rfl
  | x :: xs, e => by simp only [chain, chain_ren xs, Core.Ex.ren, renEs]
theorem chain_uses : ∀ (xs : List Nm) (e : Core.Ex), (chain S e xs).uses = e.uses
  | [], _ => rfl
  | x :: xs, e => by simp only [chain, chain_uses xs, Core.Ex.uses, usesEs, List.append_nil]

theorem fnTarget_merged (env : Env) (g : FnName) : (fnTarget S env g).merged o = fnTarget S env g := by
  simp only [fnTarget]
  split
  · exact target_merged env _
  · simp only [Core.Tg.merged, mergedEs, Core.Ex.merged, chain_merged, name_merged]

include hf in
theorem fnTarget_ren {env env' : Env} {g : FnName} (h : Looks S f (fnTarget S env g).uses env env') : fnTarget S env' g = (fnTarget S env g).ren f := by
  simp only [fnTarget] at h ⊢
  split
  · rename_i e
    rw [e] at h
    exact target_ren hf h
  · rename_i e
    rw [e] at h
    simp only [Core.Tg.uses, usesEs, Core.Ex.uses, chain_uses, List.append_nil] at h
    simp only [Core.Tg.ren, renEs, Core.Ex.ren, chain_ren, name_ren hf h]

theorem shape_m (env : Env) : ∀ (its : Its) (n : Nat), shape (mIts S o env n its) = shape its
  | .nil, _ => rfl
  | .pos _ its, n => by simp only [mIts, shape, shape_m env its]
  | .named _ _ its, n => by simp only [mIts, shape, shape_m env its]
  | .keyed _ _ its, n => by simp only [mIts, shape, shape_m env its]

/-! ### What is claimed -/

variable (S o f)

/-- The tree `t` stands for `E`, up to numbers, where names mean what they mean in `env`. -/
def TE (env : Env) (t : Ex) (E : Core.Ex) : Prop :=
  ∀ env' n', Looks S f E.uses env env' → Keeps f (kEx E (eE S env' n' t)) → eE S env' n' t = E.ren f
def TEs (env : Env) (t : Exs) (E : List Core.Ex) : Prop :=
  ∀ env' n', Looks S f (usesEs E) env env' → Keeps f (kEs E (eEs S env' n' t)) → eEs S env' n' t = renEs f E

def namesOf : St → List Nm
  | .local_ xs _ => xs.map (·.1)
  | .localfn x _ _ => [x]
  | _ => []

def isLoc : St → Bool
  | .local_ _ _ => true
  | _ => false
def isLocals : Core.St → Bool
  | .locals _ _ => true
  | _ => false

theorem after_eq (env : Env) (n : Nat) (s : St) : after env n s = bind env n (namesOf s) := by cases s <;> rfl

/-- The names are those `o` compares, and the numbers are not given ones. -/
def Nms (code : Nm → Nat) (xs : List Nm) (ms : List Nat) : Prop := List.Forall₂ (fun x m => o.name m = code x ∧ S.given ≤ m) xs ms

inductive TI (code : Nm → Nat) (env : Env) : Item → Prop
  | loc {k xs es X E} (h1 : Nms S o code (xs.map (·.1)) X) (h2 : E.length = lenEs es) (h3 : TEs S f env es E) : TI code env ⟨k, .local_ xs es, .locals X E⟩
  | other {k t c} (h1 : isLoc t = false) (h2 : isLocals c = false) (h3 : (namesOf t).length = c.decls.length)
      (h4 : ∀ env' n', Looks S f c.uses env env' → Keeps f (kSt c (eS S env' n' t)) → eS S env' n' t = c.ren f) : TI code env ⟨k, t, c⟩

def envAfter (env : Env) (i : Item) : Env := bindN env (namesOf i.st) i.core.decls

def TB (code : Nm → Nat) (env : Env) : List Item → Prop
  | [] => True
  | i :: is => TI S o f code env i ∧ TB code (envAfter env i) is

def envEnd (env : Env) : List Item → Env
  | [] => env
  | i :: is => envEnd (envAfter env i) is

def cores (is : List Item) : List Core.St := is.map (·.core)

variable {S o f}

theorem EqL.envEnd {env env' : Env} (h : EqL env env') : ∀ is : List Item, EqL (envEnd env is) (envEnd env' is)
  | [] => h
  | _ :: is => EqL.envEnd (h.bindN _ _) is

theorem TI.congr {env env' : Env} (h : EqL env env') {i : Item} (hi : TI S o f code env i) : TI S o f code env' i := by
  have h' : EqL env' env := fun x => (h x).symm
  cases hi with
  | loc h1 h2 h3 => exact .loc h1 h2 fun env1 n1 hl => h3 env1 n1 (h'.looks hl)
  | other h1 h2 h3 h4 => exact .other h1 h2 h3 fun env1 n1 hl => h4 env1 n1 (h'.looks hl)

theorem TB.congr : ∀ (is : List Item) {env env' : Env}, EqL env env' → TB S o f code env is → TB S o f code env' is
  | [], _, _, _, _ => trivial
  | _ :: is, _, _, h, hb => ⟨hb.1.congr h, TB.congr is (h.bindN _ _) hb.2⟩

/-! ### Joining -/

theorem appEs_len : ∀ es fs : Exs, lenEs (appEs es fs) = lenEs es + lenEs fs
  | .nil, fs => by simp [appEs, lenEs]
  | .cons e es, fs => by simp only [appEs, lenEs, appEs_len es fs]; omega

theorem eEs_len (env : Env) : ∀ (es : Exs) (n : Nat), (eEs S env n es).length = lenEs es
  | .nil, _ => rfl
  | .cons e es, n => by simp only [eEs, List.length_cons, lenEs, eEs_len env es]

theorem eEs_app (env : Env) : ∀ (es fs : Exs) (n : Nat), eEs S env n (appEs es fs) = eEs S env n es ++ eEs S env (n + LuaScope.nEs es) fs
  | .nil, fs, n => rfl
  | .cons e es, fs, n => by simp only [appEs, eEs, eEs_app env es fs, LuaScope.nEs, List.cons_append, Nat.add_assoc]

theorem uses_app : ∀ es fs : List Core.Ex, usesEs (es ++ fs) = usesEs es ++ usesEs fs
  | [], _ => rfl
  | e :: es, fs => by simp only [List.cons_append, usesEs, uses_app es fs, List.append_assoc]

theorem ren_app : ∀ es fs : List Core.Ex, renEs f (es ++ fs) = renEs f es ++ renEs f fs
  | [], _ => rfl
  | e :: es, fs => by simp only [List.cons_append, renEs, ren_app es fs]

theorem kEs_app : ∀ es es' fs fs' : List Core.Ex, es.length = es'.length → kEs (es ++ fs) (es' ++ fs') = kEs es es' ++ kEs fs fs'
  | [], [], _, _, _ => by simp [kEs]
  | [], _ :: _, _, _, h => by simp at h
  | _ :: _, [], _, _, h => by simp at h
  | e :: es, e' :: es', fs, fs', h => by
    simp only [List.cons_append, kEs, kEs_app es es' fs fs' (by simpa using h), List.append_assoc]

theorem TEs.append {env : Env} {es fs : Exs} {E F : List Core.Ex} (hl : E.length = lenEs es) (he : TEs S f env es E) (hF : TEs S f env fs F) :
    TEs S f env (appEs es fs) (E ++ F) := by
  intro env' n' hk kp
  rw [uses_app] at hk
  rw [eEs_app, kEs_app _ _ _ _ (by rw [eEs_len, hl])] at kp
  rw [eEs_app, ren_app, he env' n' hk.l kp.left, hF env' _ hk.r kp.right]

/-- What is not used may as well not be declared. -/
theorem TEs.without {env : Env} {fs : Exs} {F : List Core.Ex} {xs : List Nm} {X : List Nat} (h : TEs S f (bindN env xs X) fs F)
    (hu : ∀ x ∈ X, x ∉ usesEs F) (hg : ∀ x ∈ X, S.given ≤ x) : TEs S f env fs F := by
  intro env' n' hk
  refine h env' n' fun x => ?_
  rw [look_bindN]
  cases e : look (bindN [] xs X) x with
  | none => exact hk x
  | some m =>
    have hm := (look_bindN_mem _ _ _ _ e).2
    refine ⟨fun k hk hu' => ?_, nofun⟩
    simp only [Option.some_or, Option.some.injEq] at hk
    subst hk
    rcases hu' with h | h
    · have := hg m hm; omega
    · exact absurd h (hu m hm)

theorem Nms.len {xs : List Nm} {X : List Nat} (h : Nms S o code xs X) : xs.length = X.length := List.Forall₂.length_eq h
theorem Nms.given {xs : List Nm} {X : List Nat} (h : Nms S o code xs X) : ∀ m ∈ X, S.given ≤ m := by
  unfold Nms at h
  induction h with
  | nil => simp
  | cons h1 h2 ih =>
    intro m hm
    rcases List.mem_cons.1 hm with rfl | hm
    · exact h1.2
    · exact ih m hm
theorem Nms.name {xs : List Nm} {X : List Nat} (h : Nms S o code xs X) : ∀ x ∈ xs, ∃ m ∈ X, o.name m = code x := by
  unfold Nms at h
  induction h with
  | nil => simp
  | cons h1 h2 ih =>
    intro m hm
    rcases List.mem_cons.1 hm with rfl | hm
    · exact ⟨_, by simp, h1.1⟩
    · obtain ⟨k, hk, e⟩ := ih m hm
      exact ⟨k, List.mem_cons_of_mem _ hk, e⟩

theorem usesEs_of : ∀ {es : List Core.Ex} {e : Core.Ex} {x : Nat}, e ∈ es → x ∈ e.uses → x ∈ usesEs es
  | _ :: _, _, _, h, hx => by
    rcases List.mem_cons.1 h with rfl | h
    · exact List.mem_append_left _ hx
    · exact List.mem_append_right _ (usesEs_of h hx)

theorem usesEs_mem' : ∀ {es : List Core.Ex} {x : Nat}, x ∈ usesEs es → ∃ e ∈ es, x ∈ e.uses
  | [], _, h => by cases h
  | e :: es, x, h => by
    rcases List.mem_append.mp h with h | h
    · exact ⟨e, by simp, h⟩
    · obtain ⟨e', h1, h2⟩ := usesEs_mem' h
      exact ⟨e', List.mem_cons_of_mem _ h1, h2⟩

theorem merge_item {env : Env} {k k' : Nat} {xs ys : List (Nm × Option Nm)} {es fs : Exs} {X Y : List Nat} {E F : List Core.Ex}
    (nx : Nms S o code (xs.map (·.1)) X) (le : E.length = lenEs es) (te : TEs S f env es E)
    (ny : Nms S o code (ys.map (·.1)) Y) (lf : F.length = lenEs fs) (tf : TEs S f (bindN env (xs.map (·.1)) X) fs F) (ok : o.ok X E Y F = true) :
    TI S o f code env ⟨k, .local_ (xs.take (lenEs es) ++ ys ++ xs.drop (lenEs es)) (appEs es fs), .locals (X.take E.length ++ Y ++ X.drop E.length) (E ++ F)⟩ ∧
    EqL (envAfter env ⟨k, .local_ (xs.take (lenEs es) ++ ys ++ xs.drop (lenEs es)) (appEs es fs), .locals (X.take E.length ++ Y ++ X.drop E.length) (E ++ F)⟩)
      (envAfter (envAfter env ⟨k, .local_ xs es, .locals X E⟩) ⟨k', .local_ ys fs, .locals Y F⟩) := by
  simp only [Merge.ok, Bool.and_eq_true, Bool.not_eq_true', decide_eq_false_iff_not, Bool.and_eq_false_iff, Bool.or_eq_false_iff,
    List.all_eq_true, List.any_eq_false] at ok
  obtain ⟨⟨⟨⟨⟨h1, h2⟩, h3⟩, h4⟩, h5⟩, h6⟩ := ok
  have hu : ∀ x ∈ X, x ∉ usesEs F := by
    intro x hx hxu
    obtain ⟨e, he, hxe⟩ := usesEs_mem' hxu
    exact h4 e he x hxe (by simpa using hx)
  have dn : ∀ z ∈ (xs.drop (lenEs es)).map (·.1), z ∉ ys.map (·.1) := by
    intro z hz hy
    have hd : Nms S o code ((xs.map (·.1)).drop E.length) (X.drop E.length) := List.forall₂_drop _ nx
    rw [← List.map_drop, le] at hd
    obtain ⟨m, hm, em⟩ := hd.name z hz
    obtain ⟨m', hm', em'⟩ := ny.name z hy
    rcases h6 with h6 | h6
    · have : lenEs es < X.length := by
        have := List.length_pos_of_mem hm
        rw [List.length_drop] at this
        omega
      exact h6 (by omega)
    · rw [← le] at hm
      exact h6 m hm (List.any_eq_true.mpr ⟨m', hm', by simp [em, em']⟩)
  refine ⟨.loc ?_ ?_ (te.append le (tf.without hu nx.given)), ?_⟩
  · simp only [List.map_append, List.map_take, List.map_drop, ← le]
    exact List.rel_append (List.rel_append (List.forall₂_take _ nx) ny) (List.forall₂_drop _ nx)
  · rw [List.length_append, appEs_len, le, lf]
  · simp only [envAfter, namesOf, Core.St.decls, List.map_append]
    have lx := nx.len
    have ly := ny.len
    have lt : ((xs.take (lenEs es)).map (·.1)).length = (X.take E.length).length := by
      simp only [List.length_map, List.length_take] at lx ⊢; omega
    rw [bindN_append _ _ _ _ _ (by rw [List.length_append, List.length_append, lt, ly]), bindN_append _ _ _ _ _ lt]
    have ex : bindN env (xs.map (·.1)) X = bindN (bindN env ((xs.take (lenEs es)).map (·.1)) (X.take E.length)) ((xs.drop (lenEs es)).map (·.1)) (X.drop E.length) := by
      rw [← bindN_append _ _ _ _ _ lt, ← List.map_append, List.take_append_drop, List.take_append_drop]
    rw [ex]
    intro x
    exact ((bindN_comm _ _ _ _ _ dn) x).symm

theorem two_other (p s : Item) (h : isLoc p.st = false ∨ isLoc s.st = false) : two o p s = none := by
  obtain ⟨_, p, _⟩ := p
  obtain ⟨_, s, _⟩ := s
  cases p with
  | local_ xs es =>
    cases s with
    | local_ ys fs => simp [isLoc] at h
    | _ => rfl
  | _ => rfl

theorem core_two_other (p s : Core.St) (h : isLocals p = false ∨ isLocals s = false) : o.two p s = none := by
  cases p with
  | locals xs es =>
    cases s with
    | locals ys fs => simp [isLocals] at h
    | _ => rfl
  | _ => rfl

theorem join_ok : ∀ (is : List Item) (p : Item) (env : Env), TI S o f code env p → TB S o f code (envAfter env p) is →
    TB S o f code env (join o p is) ∧ EqL (envEnd env (join o p is)) (envEnd (envAfter env p) is) ∧ cores (join o p is) = o.join p.core (cores is)
  | [], p, env, hp, _ => ⟨⟨hp, trivial⟩, fun _ => rfl, rfl⟩
  | s :: is, p, env, hp, hb => by
    have none_case : two o p s = none → o.two p.core s.core = none →
        TB S o f code env (join o p (s :: is)) ∧ EqL (envEnd env (join o p (s :: is))) (envEnd (envAfter env p) (s :: is)) ∧
          cores (join o p (s :: is)) = o.join p.core (cores (s :: is)) := by
      intro h1 h2
      obtain ⟨i1, i2, i3⟩ := join_ok is s (envAfter env p) hb.1 hb.2
      simp only [join, h1, cores, List.map_cons, Merge.join, h2]
      exact ⟨⟨hp, i1⟩, i2, by rw [← cores, i3]; rfl⟩
    have hs := hb.1
    have hrest := hb.2
    cases hp with
    | other h1 h2 h3 h4 => exact none_case (two_other _ _ (.inl h1)) (core_two_other _ _ (.inl h2))
    | @loc k xs es X E nx le te =>
      cases hs with
      | other h1 h2 h3 h4 => exact none_case (two_other _ _ (.inr h1)) (core_two_other _ _ (.inr h2))
      | @loc k' ys fs Y F ny lf tf =>
        by_cases ok : o.ok X E Y F = true
        · obtain ⟨m1, m2⟩ := merge_item (k := k) (k' := k') nx le te ny lf tf ok
          obtain ⟨i1, i2, i3⟩ := join_ok is _ env m1 (TB.congr is (fun x => (m2 x).symm) hrest)
          simp only [join, two, Merge.two, if_pos ok, Option.map_some, cores, List.map_cons, Merge.join]
          exact ⟨i1, fun x => (i2 x).trans (EqL.envEnd m2 is x), i3⟩
        · refine none_case ?_ ?_
          · simp only [two, Merge.two, if_neg ok, Option.map_none]
          · simp only [Merge.two, if_neg ok]

theorem joinAll_ok (is : List Item) (env : Env) (hb : TB S o f code env is) :
    TB S o f code env (joinAll o is) ∧ EqL (envEnd env (joinAll o is)) (envEnd env is) ∧ cores (joinAll o is) = o.joinAll (cores is) := by
  cases is with
  | nil => exact ⟨trivial, fun _ => rfl, rfl⟩
  | cons i is => exact join_ok is i env hb.1 hb.2

theorem eB_semis (env : Env) (n : Nat) (b : Block) : ∀ k, eB S env n (semisThen b k) = eB S env n b
  | 0 => rfl
  | k + 1 => by simp only [semisThen, eB, eB_semis env n b k]
theorem atEnd_semis (env : Env) (n : Nat) (b : Block) : ∀ k, atEnd env n (semisThen b k) = atEnd env n b
  | 0 => rfl
  | k + 1 => by simp only [semisThen, atEnd, atEnd_semis env n b k]

theorem TI.run {env : Env} {i : Item} (h : TI S o f code env i) {env' : Env} {n' : Nat} (hl : Looks S f i.core.uses env env')
    (hk : Keeps f (kSt i.core (eS S env' n' i.st))) : eS S env' n' i.st = i.core.ren f := by
  cases h with
  | other h1 h2 h3 h4 => exact h4 env' n' hl hk
  | @loc k xs es X E h1 h2 h3 =>
    simp only [eS, kSt, Core.St.uses] at hk hl ⊢
    rw [h3 env' _ hl hk.left, Core.St.ren, (hk.right).zip (by rw [List.length_range', ← h1.len, List.length_map])]

theorem TI.len {env : Env} {i : Item} (h : TI S o f code env i) : (namesOf i.st).length = i.core.decls.length := by
  cases h with
  | other h1 h2 h3 h4 => exact h3
  | loc h1 h2 h3 => exact h1.len

theorem decls_eOp (env : Env) (n : Nat) (u : Op) (r : Core.Ex) : ∀ t : Ex, (eOp S env n u r t).decls = []
  | .group e => by simp only [eOp]; exact decls_eOp env n u r e
  | .var _ | .num _ | .str _ | .cst _ | .vararg | .func _ _ | .bin _ _ _ | .member _ _ | .index _ _ | .call _ _ _ | .method _ _ _ _ | .table _ | .un _ _ => by
    simp only [eOp, Core.St.decls]

theorem decls_eS (env : Env) (n : Nat) (s : St) : (eS S env n s).decls = List.range' n (namesOf s).length := by
  cases s with
  | if_ i => cases i <;> rfl
  | opassign u t e => simp only [eS, decls_eOp, namesOf]; rfl
  | local_ xs es => simp only [eS, Core.St.decls, namesOf, List.length_map]
  | localfn x ps b => rfl
  | _ => simp only [eS, Core.St.decls, namesOf, List.length_nil, List.range'_zero]

theorem decls_ren (s : Core.St) : (s.ren f).decls = s.decls.map f := by cases s <;> rfl

theorem block_ok (k : Nat) : ∀ (is : List Item) {env : Env}, TB S o f code env is → ∀ {env' : Env} {n' : Nat}, Looks S f (usesBl (cores is)) env env' →
    Keeps f (kBl (cores is) (eB S env' n' (blockOf k is))) → eB S env' n' (blockOf k is) = renBl f (cores is) ∧
      ∀ U, Looks S f U env env' → Looks S f U (envEnd env is) (atEnd env' n' (blockOf k is))
  | [], env, _, env', n', _, _ => by
    simp only [blockOf, eB_semis, atEnd_semis, eB, atEnd, cores, List.map_nil, renBl, envEnd]
    exact ⟨trivial, fun U h => h⟩
  | i :: is, env, hb, env', n', hl, hk => by
    simp only [blockOf, eB_semis, atEnd_semis, eB, atEnd, cores, List.map_cons, renBl, envEnd, kBl, usesBl] at hl hk ⊢
    have h1 := hb.1.run hl.l hk.left
    have hr : List.range' n' (namesOf i.st).length = i.core.decls.map f := by rw [← decls_eS (S := S) env', h1, decls_ren]
    have ha : ∀ U, Looks S f U env env' → Looks S f U (envAfter env i) (after env' n' i.st) := by
      intro U h
      rw [after_eq, bind_bindN, hr]
      exact h.bindN _ _
    obtain ⟨h2, h3⟩ := block_ok k is hb.2 (ha _ hl.r) hk.right
    exact ⟨by rw [h1]; congr 1, fun U h => h3 U (ha U h)⟩

/-! ### Numbers -/

mutual
theorem lE : ∀ e : Ex, (dE e).length = LuaScope.nE e
  | .var _ | .num _ | .str _ | .cst _ | .vararg => rfl
  | .func ps b => by simp only [dE, LuaScope.nE, List.length_append, lB b]
  | .group e => lE e
  | .un _ e => lE e
  | .bin _ l r => by simp only [dE, LuaScope.nE, List.length_append, lE l, lE r]
  | .member b _ => lE b
  | .index b k => by simp only [dE, LuaScope.nE, List.length_append, lE b, lE k]
  | .call b _ as => by simp only [dE, LuaScope.nE, List.length_append, lE b, lEs as]
  | .method b _ _ as => by simp only [dE, LuaScope.nE, List.length_append, lE b, lEs as]
  | .table its => lIts its
theorem lEs : ∀ e : Exs, (dEs e).length = LuaScope.nEs e
  | .nil => rfl
  | .cons e es => by simp only [dEs, LuaScope.nEs, List.length_append, lE e, lEs es]
theorem lIts : ∀ e : Its, (dIts e).length = LuaScope.nIts e
  | .nil => rfl
  | .pos e es => by simp only [dIts, LuaScope.nIts, List.length_append, lE e, lIts es]
  | .named _ e es => by simp only [dIts, LuaScope.nIts, List.length_append, lE e, lIts es]
  | .keyed k e es => by simp only [dIts, LuaScope.nIts, List.length_append, lE k, lE e, lIts es]; omega
theorem lS : ∀ s : St, (dS s).length = LuaScope.nS s
  | .do_ b => lB b
  | .if_ i => lI i
  | .while_ c b => by simp only [dS, LuaScope.nS, List.length_append, lE c, lB b]
  | .whileShort c b _ => by simp only [dS, LuaScope.nS, List.length_append, lE c, lB b]
  | .repeat_ b c => by simp only [dS, LuaScope.nS, List.length_append, lE c, lB b]
  | .fornum x a b c d => by simp only [dS, LuaScope.nS, List.length_append, List.length_cons, lE a, lE b, lEs c, lB d]; omega
  | .forin xs es d => by simp only [dS, LuaScope.nS, List.length_append, lEs es, lB d]; omega
  | .break_ => rfl
  | .return_ es => lEs es
  | .local_ xs es => by simp only [dS, LuaScope.nS, List.length_append, List.length_map, lEs es]
  | .localfn x ps b => by simp only [dS, LuaScope.nS, List.length_append, List.length_cons, lB b]; omega
  | .goto_ _ => rfl
  | .label _ => rfl
  | .func f ps b => by simp only [dS, LuaScope.nS, List.length_append, lB b]
  | .assign ts es => by simp only [dS, LuaScope.nS, List.length_append, lEs ts, lEs es]
  | .opassign _ t e => by simp only [dS, LuaScope.nS, List.length_append, lE t, lE e]
  | .call e => lE e
  | .print es => lEs es
theorem lI : ∀ i : If, (dI i).length = LuaScope.nI i
  | .long c b t => by simp only [dI, LuaScope.nI, List.length_append, lE c, lB b, lT t]; omega
  | .short c b _ => by simp only [dI, LuaScope.nI, List.length_append, lE c, lB b]
  | .shortElse c b d _ => by simp only [dI, LuaScope.nI, List.length_append, lE c, lB b, lB d]; omega
theorem lT : ∀ t : Tail, (dT t).length = LuaScope.nT t
  | .end_ => rfl
  | .else_ b => lB b
  | .elseif_ i => lI i
theorem lB : ∀ b : Block, (dB b).length = LuaScope.nB b
  | .nil => rfl
  | .semi b => lB b
  | .cons s b => by simp only [dB, LuaScope.nB, List.length_append, lS s, lB b]
end

/-- The names are those of the declarations from `n` on. -/
def NA (S : Sem) (o : Merge) (code : Nm → Nat) (n : Nat) (l : List Nm) : Prop := Nms S o code l (List.range' n l.length)

theorem na_app : ∀ (a b : List Nm) (n : Nat), NA S o code n (a ++ b) → NA S o code n a ∧ NA S o code (n + a.length) b
  | [], b, n, h => ⟨List.Forall₂.nil, h⟩
  | x :: a, b, n, h => by
    simp only [NA, Nms, List.cons_append, List.length_cons, List.range'_succ, List.forall₂_cons] at h
    have := na_app a b (n + 1) h.2
    refine ⟨?_, by rw [List.length_cons, show n + (a.length + 1) = n + 1 + a.length by omega]; exact this.2⟩
    simp only [NA, Nms, List.length_cons, List.range'_succ, List.forall₂_cons]
    exact ⟨h.1, this.1⟩

theorem NA.l {a b : List Nm} {n : Nat} (h : NA S o code n (a ++ b)) : NA S o code n a := (na_app a b n h).1
theorem NA.r {a b : List Nm} {n k : Nat} (h : NA S o code n (a ++ b)) (hk : a.length = k) : NA S o code (n + k) b := hk ▸ (na_app a b n h).2
theorem NA.t {x : Nm} {b : List Nm} {n : Nat} (h : NA S o code n (x :: b)) : NA S o code (n + 1) b := NA.r (a := [x]) h rfl

/-! ### Blocks -/

variable (S o f)
/-- The block `t` stands for `B`; `envE` is what is visible at its end. -/
def TBr (env envE : Env) (t : Block) (B : List Core.St) : Prop :=
  ∀ env' n', Looks S f (usesBl B) env env' → Keeps f (kBl B (eB S env' n' t)) → eB S env' n' t = renBl f B ∧
    ∀ U, Looks S f U env env' → Looks S f U envE (atEnd env' n' t)

def TItems (code : Nm → Nat) (env : Env) (n : Nat) (b : Block) : Prop :=
  TB S o f code env (mB S o env n b).1 ∧ envEnd env (mB S o env n b).1 = atEnd env n b ∧ cores (mB S o env n b).1 = mergedBl o (eB S env n b)
variable {S o f}

theorem TItems.block {env : Env} {n : Nat} {b : Block} (h : TItems S o f code env n b) :
    TBr S f env (atEnd env n b) (block o (mB S o env n b)) (o.joinAll (mergedBl o (eB S env n b))) := by
  obtain ⟨h1, h2, h3⟩ := h
  obtain ⟨j1, j2, j3⟩ := joinAll_ok _ env h1
  rw [h3] at j3
  rw [h2] at j2
  intro env' n' hl hk
  rw [← j3] at hl hk ⊢
  obtain ⟨b1, b2⟩ := block_ok _ _ j1 hl hk
  exact ⟨b1, fun U hU => j2.looks (b2 U hU)⟩

theorem semi_core : ∀ is : Items, cores is.semi.1 = cores is.1
  | ([], _) => rfl
  | (_ :: _, _) => rfl
theorem semi_env (env : Env) : ∀ is : Items, envEnd env is.semi.1 = envEnd env is.1
  | ([], _) => rfl
  | (_ :: _, _) => rfl
theorem TI.semi {env : Env} {k k' : Nat} {s : St} {c : Core.St} (h : TI S o f code env ⟨k, s, c⟩) : TI S o f code env ⟨k', s, c⟩ := by
  cases h with
  | loc h1 h2 h3 => exact .loc h1 h2 h3
  | other h1 h2 h3 h4 => exact .other h1 h2 h3 h4
theorem semi_TB {env : Env} : ∀ is : Items, TB S o f code env is.1 → TB S o f code env is.semi.1
  | ([], _), _ => trivial
  | (_ :: _, _), h => ⟨h.1.semi, h.2⟩

theorem mergedEs_len : ∀ es : List Core.Ex, (mergedEs o es).length = es.length
  | [] => rfl
  | _ :: es => by simp only [mergedEs, List.length_cons, mergedEs_len es]

theorem mEs_len (env : Env) : ∀ (es : Exs) (n : Nat), lenEs (mEs S o env n es) = lenEs es
  | .nil, _ => rfl
  | .cons e es, n => by simp only [mEs, lenEs, mEs_len env es]

variable (S o f)
def TOnes (env : Env) (t : Exs) (E : List Core.Ex) : Prop :=
  ∀ env' n', Looks S f (usesEs E) env env' → Keeps f (kEs E (eOnes S env' n' t)) → eOnes S env' n' t = renEs f E
def TIts (env : Env) (t : Its) (E : List Core.Ex) : Prop :=
  ∀ env' n', Looks S f (usesEs E) env env' → Keeps f (kEs E (eIts S env' n' t)) → eIts S env' n' t = renEs f E
def TT (env : Env) (t : Ex) (E : Core.Tg) : Prop :=
  ∀ env' n', Looks S f E.uses env env' → Keeps f (kTg E (eT S env' n' t)) → eT S env' n' t = E.ren f
def TTs (env : Env) (t : Exs) (E : List Core.Tg) : Prop :=
  ∀ env' n', Looks S f (usesTs E) env env' → Keeps f (kTs E (eTs S env' n' t)) → eTs S env' n' t = renTs f E
def TEl (env : Env) (t : Tail) (E : Core.El) : Prop :=
  ∀ env' n', Looks S f E.uses env env' → Keeps f (kEl E (eTail S env' n' t)) → eTail S env' n' t = E.ren f
def TSt (env : Env) (t : St) (E : Core.St) : Prop :=
  ∀ env' n', Looks S f E.uses env env' → Keeps f (kSt E (eS S env' n' t)) → eS S env' n' t = E.ren f
variable {S o f}

theorem TE.group {env : Env} {t : Ex} {E : Core.Ex} (h : TE S f env t E) : TE S f env (.group t) (.group E) := by
  intro env' n' hl hk
  simp only [eE, kEx, Core.Ex.uses, Core.Ex.ren] at hl hk ⊢
  rw [h env' n' hl hk]

theorem TE.call {env : Env} {n : Nat} {b : Ex} {as : Exs} {A : List Core.Ex} (hf : FOk S.given f)
    (hb : TE S f env (mE S o env n b) ((eE S env n b).merged o)) (ha : TEs S f env as A) :
    ∀ env' n', Looks S f (callOf (builtinOf S env b) ((eE S env n b).merged o) A).uses env env' →
      Keeps f (kEx (callOf (builtinOf S env b) ((eE S env n b).merged o) A) (callOf (builtinOf S env' (mE S o env n b)) (eE S env' n' (mE S o env n b)) (eEs S env' (n' + LuaScope.nE (mE S o env n b)) as))) →
      callOf (builtinOf S env' (mE S o env n b)) (eE S env' n' (mE S o env n b)) (eEs S env' (n' + LuaScope.nE (mE S o env n b)) as) =
        (callOf (builtinOf S env b) ((eE S env n b).merged o) A).ren f := by
  intro env' n' hl hk
  cases e : builtinOf S env b with
  | some g =>
    rw [e] at hl hk
    rw [builtin_some hf (hl.mono (by simp)) n b e] at hk ⊢
    simp only [callOf, kEx, Core.Ex.uses, Core.Ex.ren] at hl hk ⊢
    rw [ha env' _ hl hk]
  | none =>
    rw [e] at hl hk
    simp only [callOf, Core.Ex.uses] at hl
    rw [builtin_none hf n n b hl.l e] at hk ⊢
    simp only [callOf, kEx, Core.Ex.ren] at hk ⊢
    rw [ha env' _ hl.r hk.right, hb env' _ hl.l hk.left]

theorem callOf_merged (g : Option Builtin) (e : Core.Ex) (es : List Core.Ex) : (callOf g e es).merged o = callOf g (e.merged o) (mergedEs o es) := by
  cases g <;> rfl

end Verif.Elab.Mt
