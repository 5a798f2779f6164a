import Verif.RenameTree
/-
Renaming a tree and then listing its events is the same as listing the events and then renaming them.
-/
namespace Verif.Resolve
open Syntax

/-- A new name for an event. -/
def put (ns : List Nm) : Ev → Ev
  | .tgt x => .tgt (ns.headD x)
  | .use x => .use (ns.headD x)
  | .member x f => .member (ns.headD x) f
  | .label x => .label (ns.headD x)
  | .goto_ x => .goto_ (ns.headD x)
  | e => e

/-- New names for events. -/
def subst (ns : List Nm) : List Ev → List Ev
  | [] => []
  | e :: es => put ns e :: subst (ns.drop (takes [e])) es

/-- `_ENV` stays, and nothing else becomes `_ENV`. -/
def Keeps (ns : List Nm) : List Ev → Prop
  | [] => True
  | e :: es => (match e with | .tgt x | .use x => (ns.headD x == envName) = (x == envName) | _ => True) ∧ Keeps (ns.drop (takes [e])) es

theorem takes_append (a b : List Ev) : takes (a ++ b) = takes a + takes b := by simp [takes]
theorem takes_cons (e : Ev) (b : List Ev) : takes (e :: b) = takes [e] + takes b := takes_append [e] b
theorem takes_nil : takes [] = 0 := rfl

theorem drop_append (ns : List Nm) (a b : List Ev) : ns.drop (takes (a ++ b)) = (ns.drop (takes a)).drop (takes b) := by
  rw [takes_append, List.drop_drop]

theorem subst_append : ∀ (ns : List Nm) (a b : List Ev), subst ns (a ++ b) = subst ns a ++ subst (ns.drop (takes a)) b
  | _, [], _ => by simp [subst, takes]
  | ns, e :: a, b => by
    simp only [List.cons_append, subst, subst_append _ a b]
    rw [takes_cons e a, List.drop_drop]

theorem keeps_append : ∀ (ns : List Nm) (a b : List Ev), Keeps ns (a ++ b) ↔ Keeps ns a ∧ Keeps (ns.drop (takes a)) b
  | _, [], _ => by simp [Keeps, takes]
  | ns, e :: a, b => by
    simp only [List.cons_append, Keeps, keeps_append _ a b, and_assoc]
    rw [takes_cons e a, List.drop_drop]

theorem t_tgt (x : Nm) : takes [.tgt x] = 1 := rfl
theorem t_use (x : Nm) : takes [.use x] = 1 := rfl
theorem t_print : takes [.print] = 1 := rfl
theorem t_member (x : Nm) (f : Bool) : takes [.member x f] = 1 := rfl
theorem t_label (x : Nm) : takes [.label x] = 1 := rfl
theorem t_goto (x : Nm) : takes [.goto_ x] = 1 := rfl
theorem t_enter (f : Bool) : takes [.enter f] = 0 := rfl
theorem t_leave : takes [.leave] = 0 := rfl
theorem t_new : takes [.newScope false] = 0 := rfl
theorem t_add : takes [.add] = 0 := rfl
theorem t_close : takes [.close] = 0 := rfl

theorem evPs_s : ∀ (ps : List Param) (ns : List Nm), evPs (sPs ns ps) = subst ns (evPs ps)
  | [], _ => rfl
  | none :: ps, ns => by simpa [evPs, sPs] using evPs_s ps ns
  | some x :: ps, ns => by
    have := evPs_s ps ns.tail
    simp only [evPs] at this
    simp [evPs, sPs, subst, put, t_tgt, this]

theorem evHead_s (self : Bool) (ps : List Param) (ns : List Nm) :
    evHead self (sPs (ns.drop (takes [.newScope self])) ps) = subst ns (evHead self ps) := by
  simp only [evHead, subst, subst_append, put, evPs_s]

theorem map_tgt_s : ∀ (xs : List Nm) (ns : List Nm), (sNs ns xs).map Ev.tgt = subst ns (xs.map Ev.tgt)
  | [], _ => rfl
  | x :: xs, ns => by
    have := map_tgt_s xs ns.tail
    simp [sNs, subst, put, t_tgt, this]

theorem takes_tgts : ∀ (xs : List Nm), takes (xs.map Ev.tgt) = xs.length
  | [] => rfl
  | x :: xs => by rw [List.map_cons, takes_cons, t_tgt, takes_tgts xs, List.length_cons]; omega

theorem map_tgtX_s : ∀ (xs : List (Nm × Option Nm)) (ns : List Nm), (sXs ns xs).map (Ev.tgt ·.1) = subst ns (xs.map (Ev.tgt ·.1))
  | [], _ => rfl
  | x :: xs, ns => by
    have := map_tgtX_s xs ns.tail
    simp [sXs, subst, put, t_tgt, this]

theorem takes_tgtsX : ∀ (xs : List (Nm × Option Nm)), takes (xs.map (Ev.tgt ·.1)) = xs.length
  | [] => rfl
  | x :: xs => by rw [List.map_cons, takes_cons, t_tgt, takes_tgtsX xs, List.length_cons]; omega

theorem envX_s : ∀ (xs : List (Nm × Option Nm)) (ns : List Nm), Keeps ns (xs.map (Ev.tgt ·.1)) →
    (sXs ns xs).map (·.1 == envName) = xs.map (·.1 == envName)
  | [], _, _ => rfl
  | x :: xs, ns, h => by
    simp only [List.map_cons, Keeps, t_tgt, List.drop_one] at h
    simp only [sXs, List.map_cons, h.1, envX_s xs _ h.2]

/-- The keys of a function statement. -/
def evKeys (f : Bool) : Nat → List Nm → List Ev
  | _, [] => []
  | i, x :: xs => .member x (i == 0 && f) :: evKeys f (i + 1) xs

theorem evKeys_eq (f : Bool) : ∀ (xs : List Nm) (i : Nat), (xs.zipIdx i).map (fun p => Ev.member p.1 (p.2 == 0 && f)) = evKeys f i xs
  | [], _ => rfl
  | x :: xs, i => by simp [evKeys, evKeys_eq f xs]

theorem evKeys_s (f : Bool) : ∀ (xs : List Nm) (i : Nat) (ns : List Nm), evKeys f i (sNs ns xs) = subst ns (evKeys f i xs)
  | [], _, _ => rfl
  | x :: xs, i, ns => by simp [evKeys, sNs, subst, put, t_member, evKeys_s f xs]

theorem sNs_append : ∀ (xs ys ns : List Nm), sNs ns (xs ++ ys) = sNs ns xs ++ sNs (ns.drop xs.length) ys
  | [], _, _ => by simp [sNs]
  | x :: xs, ys, ns => by simp [sNs, sNs_append xs]

theorem evFn_s (f : FnName) (ns : List Nm) (h : Keeps ns (evFn f)) : evFn (sFn ns f) = subst ns (evFn f) := by
  obtain ⟨base, keys, meth⟩ := f
  simp only [evFn, evKeys_eq] at *
  simp only [Keeps] at h
  have hm : sNs ns.tail keys ++ (meth.map fun x => (ns.tail.drop keys.length).headD x).toList = sNs ns.tail (keys ++ meth.toList) := by
    rw [sNs_append]
    cases meth <;> simp [sNs]
  simp only [sFn, subst, put, t_use, List.drop_one, hm, h.1, evKeys_s]

theorem isEnv_s : ∀ (e : Ex) (ns : List Nm), Keeps ns (evE e) → isEnv (sE ns e) = isEnv e
  | .var x, ns, h => by simp only [evE, Keeps] at h; simp only [sE, isEnv, h.1]
  | .num _, _, _ | .str _, _, _ | .cst _, _, _ | .vararg, _, _ | .func _ _, _, _ | .group _, _, _ | .un _ _, _, _ | .bin _ _ _, _, _
  | .member _ _, _, _ | .index _ _, _, _ | .call _ _ _, _, _ | .method _ _ _ _, _, _ | .table _, _, _ => by simp only [sE, isEnv]

theorem envTargets_s : ∀ (ts : Exs) (ns : List Nm), Keeps ns (evEs ts) → envTargets (sEs ns ts) = envTargets ts
  | .nil, _, _ => by simp only [sEs, envTargets]
  | .cons t ts, ns, h => by
    simp only [evEs, keeps_append] at h
    simp only [sEs, envTargets, isEnv_s t ns h.1, envTargets_s ts _ h.2]

theorem takes_its (f : Bool) : ∀ (its : Its), takes (evIts f its) = takes (evIts false its)
  | .nil => by simp only [evIts]
  | .pos e its => by simp only [evIts, takes_append, takes_its f its]
  | .named x e its => by rw [evIts, evIts, takes_cons, takes_cons (.member x false), takes_append, takes_append, takes_its f its]; rfl
  | .keyed k e its => by simp only [evIts, takes_append, takes_its f its]

theorem keeps_its (f : Bool) : ∀ (its : Its) (ns : List Nm), Keeps ns (evIts f its) ↔ Keeps ns (evIts false its)
  | .nil, _ => by simp only [evIts]
  | .pos e its, _ => by simp only [evIts, keeps_append, keeps_its f its]
  | .named x e its, _ => by simp only [evIts, Keeps, keeps_append, keeps_its f its, t_member]
  | .keyed k e its, _ => by simp only [evIts, keeps_append, keeps_its f its]

theorem notTable {e : Ex} (h : ∀ its, e ≠ .table its) (fs : List Bool) (es : Exs) : evSrc fs (.cons e es) = evE e ++ evSrc fs.tail es := by
  cases e with
  | table its => exact absurd rfl (h its)
  | _ => simp only [evSrc]

theorem takes_src : ∀ (es : Exs) (fs : List Bool), takes (evSrc fs es) = takes (evEs es)
  | .nil, _ => by simp only [evSrc, evEs]
  | .cons e es, fs => by
    by_cases h : ∃ its, e = .table its
    · obtain ⟨its, rfl⟩ := h
      simp only [evSrc, evEs, evE, takes_append, takes_its (fs.headD false), takes_src es]
    · rw [notTable (fun its hc => h ⟨its, hc⟩), evEs, takes_append, takes_append, takes_src es]

def ZE (e : Ex) : Prop := ∀ ns, Keeps ns (evE e) → evE (sE ns e) = subst ns (evE e)
def ZEs (e : Exs) : Prop := ∀ ns, Keeps ns (evEs e) → evEs (sEs ns e) = subst ns (evEs e)
def ZSrc (e : Exs) : Prop := ∀ fs ns, Keeps ns (evSrc fs e) → evSrc fs (sEs ns e) = subst ns (evSrc fs e)
def ZIts (e : Its) : Prop := ∀ f ns, Keeps ns (evIts f e) → evIts f (sIts ns e) = subst ns (evIts f e)
def ZS (e : St) : Prop := ∀ ns, Keeps ns (evS e) → evS (sS ns e) = subst ns (evS e)
def ZI (e : If) : Prop := ∀ ns, Keeps ns (evI e) → evI (sI ns e) = subst ns (evI e)
def ZT (e : Tail) : Prop := ∀ ns, Keeps ns (evT e) → evT (sT ns e) = subst ns (evT e)
def ZB (e : Block) : Prop := ∀ ns, Keeps ns (evB e) → evB (sB ns e) = subst ns (evB e)

theorem foot_s (ns : List Nm) : subst ns evFoot = evFoot := rfl
theorem takes_foot : takes evFoot = 0 := rfl

theorem ze_func (ps : List Param) (b : Block) (hb : ZB b) : ZE (.func ps b) := by
  intro ns h
  simp only [evE, keeps_append] at h
  simp only [evE, sE, subst_append, foot_s, hb _ h.2.1]
  rw [← evHead_s]
  simp only [t_new, List.drop_zero]

theorem zsrc_cons (e : Ex) (es : Exs) (he : ZE e) (hi : ∀ its, e = .table its → ZIts its) (hes : ZSrc es) : ZSrc (.cons e es) := by
  intro fs ns h
  by_cases ht : ∃ its, e = .table its
  · obtain ⟨its, rfl⟩ := ht
    simp only [evSrc, keeps_append] at h
    simp only [sEs, sE, evSrc, evE, subst_append, hi its rfl _ _ h.1]
    rw [takes_its] at h
    rw [hes _ _ h.2, takes_its (fs.headD false)]
  · have hn : ∀ its, e ≠ .table its := fun its hc => ht ⟨its, hc⟩
    rw [notTable hn] at h ⊢
    rw [sEs, notTable, subst_append]
    · rw [keeps_append] at h
      rw [he _ h.1, hes _ _ h.2]
    · intro its hc
      cases e <;> simp [sE] at hc
      exact hn _ rfl

theorem zs_local (xs : List (Nm × Option Nm)) (es : Exs) (h1 : ZSrc es) : ZS (.local_ xs es) := by
  intro ns h
  simp only [evS, Keeps, keeps_append, t_new, List.drop_zero, takes_tgtsX] at h
  simp only [evS, sS, subst, subst_append, put, t_new, List.drop_zero, map_tgtX_s, takes_tgtsX]
  rw [envX_s _ _ h.2.1, h1 _ _ h.2.2.1]

theorem zs_func (f : FnName) (ps : List Param) (b : Block) (hb : ZB b) : ZS (.func f ps b) := by
  intro ns h
  simp only [evS, keeps_append] at h
  have hm : (sFn ns f).meth.isSome = f.meth.isSome := by simp [sFn]
  simp only [evS, sS, subst_append, hm, evFn_s f ns h.1, evHead_s, hb _ h.2.2.1, foot_s]

mutual
theorem zE : ∀ e, ZE e
  | .var x => fun ns h => by simp only [evE, sE, subst, put]
  | .num _ => fun ns h => by simp only [evE, sE, subst]
  | .str _ => fun ns h => by simp only [evE, sE, subst]
  | .cst _ => fun ns h => by simp only [evE, sE, subst]
  | .vararg => fun ns h => by simp only [evE, sE, subst]
  | .func ps b => ze_func ps b (zB b)
  | .group e => fun ns h => by simp only [evE, sE] at *; exact zE e _ h
  | .un _ e => fun ns h => by simp only [evE, sE] at *; exact zE e _ h
  | .bin _ l r => fun ns h => by
    simp only [evE, keeps_append] at h
    simp only [evE, sE, subst_append, zE l _ h.1, zE r _ h.2]
  | .member b x => fun ns h => by
    simp only [evE, keeps_append] at h
    simp only [evE, sE, subst_append, zE b _ h.1, isEnv_s b _ h.1, subst, put]
  | .index b k => fun ns h => by
    simp only [evE, keeps_append] at h
    simp only [evE, sE, subst_append, zE b _ h.1, zE k _ h.2]
  | .call b _ as => fun ns h => by
    simp only [evE, keeps_append] at h
    simp only [evE, sE, subst_append, zE b _ h.1, zEs as _ h.2]
  | .method b x _ as => fun ns h => by
    simp only [evE, keeps_append, Keeps, t_member, List.drop_one] at h
    simp only [evE, sE, subst_append, zE b _ h.1, isEnv_s b _ h.1, subst, put, t_member, List.drop_one, zEs as _ h.2.2]
  | .table its => fun ns h => by simp only [evE, sE] at *; exact zIts its _ _ h
theorem zEs : ∀ e, ZEs e
  | .nil => fun ns h => by simp only [evEs, sEs, subst]
  | .cons e es => fun ns h => by
    simp only [evEs, keeps_append] at h
    simp only [evEs, sEs, subst_append, zE e _ h.1, zEs es _ h.2]
theorem zSrc : ∀ e, ZSrc e
  | .nil => fun fs ns h => by simp only [evSrc, sEs, subst]
  | .cons (.table its) es => zsrc_cons _ es (zE (.table its)) (fun i hi => by cases hi; exact zIts its) (zSrc es)
  | .cons (.var x) es => zsrc_cons _ es (zE (.var x)) (by simp) (zSrc es)
  | .cons (.num x) es => zsrc_cons _ es (zE (.num x)) (by simp) (zSrc es)
  | .cons (.str x) es => zsrc_cons _ es (zE (.str x)) (by simp) (zSrc es)
  | .cons (.cst x) es => zsrc_cons _ es (zE (.cst x)) (by simp) (zSrc es)
  | .cons .vararg es => zsrc_cons _ es (zE .vararg) (by simp) (zSrc es)
  | .cons (.func ps b) es => zsrc_cons _ es (zE (.func ps b)) (by simp) (zSrc es)
  | .cons (.group e) es => zsrc_cons _ es (zE (.group e)) (by simp) (zSrc es)
  | .cons (.un o e) es => zsrc_cons _ es (zE (.un o e)) (by simp) (zSrc es)
  | .cons (.bin o e f) es => zsrc_cons _ es (zE (.bin o e f)) (by simp) (zSrc es)
  | .cons (.member e x) es => zsrc_cons _ es (zE (.member e x)) (by simp) (zSrc es)
  | .cons (.index e f) es => zsrc_cons _ es (zE (.index e f)) (by simp) (zSrc es)
  | .cons (.call e s f) es => zsrc_cons _ es (zE (.call e s f)) (by simp) (zSrc es)
  | .cons (.method e x s f) es => zsrc_cons _ es (zE (.method e x s f)) (by simp) (zSrc es)
theorem zIts : ∀ e, ZIts e
  | .nil => fun f ns h => by simp only [evIts, sIts, subst]
  | .pos e its => fun f ns h => by
    simp only [evIts, keeps_append] at h
    simp only [evIts, sIts, subst_append, zE e _ h.1, zIts its _ _ h.2]
  | .named x e its => fun f ns h => by
    simp only [evIts, keeps_append, Keeps, t_member, List.drop_one] at h
    simp only [evIts, sIts, subst_append, subst, put, t_member, List.drop_one, zE e _ h.2.1, zIts its _ _ h.2.2]
  | .keyed k e its => fun f ns h => by
    simp only [evIts, keeps_append] at h
    simp only [evIts, sIts, subst_append, zE k _ h.1, zE e _ h.2.1, zIts its _ _ h.2.2]
theorem zS : ∀ e, ZS e
  | .do_ b => fun ns h => by
    simp only [evS, Keeps, keeps_append, t_enter, List.drop_zero] at h
    simp only [evS, sS, subst, put, subst_append, t_enter, List.drop_zero, zB b _ h.2.1]
  | .if_ i => fun ns h => by simp only [evS, sS] at *; exact zI i _ h
  | .while_ c b => fun ns h => by
    simp only [evS, Keeps, keeps_append, t_enter, List.drop_zero] at h
    simp only [evS, sS, subst, put, subst_append, t_enter, List.drop_zero, zE c _ h.1, zB b _ h.2.2.1]
  | .whileShort c b _ => fun ns h => by
    simp only [evS, Keeps, keeps_append, t_enter, List.drop_zero] at h
    simp only [evS, sS, subst, put, subst_append, t_enter, List.drop_zero, zE c _ h.1, zB b _ h.2.2.1]
  | .repeat_ b c => fun ns h => by
    simp only [evS, Keeps, keeps_append, t_enter, List.drop_zero] at h
    simp only [evS, sS, subst, put, subst_append, t_enter, List.drop_zero, zB b _ h.2.1, zE c _ h.2.2.1]
  | .fornum x a b c d => fun ns h => by
    simp only [evS, Keeps, keeps_append, t_enter, t_tgt, t_new, t_add, List.drop_zero, List.drop_one] at h
    simp only [evS, sS, subst, put, subst_append, t_enter, t_tgt, t_new, t_add, List.drop_zero, List.drop_one, zE a _ h.2.2.1, zE b _ h.2.2.2.1,
      zEs c _ h.2.2.2.2.1, zB d _ h.2.2.2.2.2.2.2.1]
  | .forin xs es d => fun ns h => by
    simp only [evS, Keeps, keeps_append, t_enter, t_new, t_add, List.drop_zero, takes_tgts] at h
    simp only [evS, sS, subst, put, subst_append, t_enter, t_new, t_add, List.drop_zero, takes_tgts, map_tgt_s, zEs es _ h.2.2.1,
      zB d _ h.2.2.2.2.2.1]
  | .break_ => fun ns h => by simp only [evS, sS, subst]
  | .return_ es => fun ns h => by simp only [evS, sS] at *; exact zEs es _ h
  | .local_ xs es => zs_local xs es (zSrc es)
  | .localfn x ps b => fun ns h => by
    simp only [evS, Keeps, keeps_append, t_new, t_tgt, t_add, List.drop_zero, List.drop_one] at h
    simp only [evS, sS, subst, put, subst_append, t_new, t_tgt, t_add, List.drop_zero, List.drop_one, zB b _ h.2.2.2.2.1, foot_s]
    rw [← evHead_s]
    simp only [t_new, List.drop_zero]
  | .goto_ x => fun ns h => by simp only [evS, sS, subst, put]
  | .label x => fun ns h => by simp only [evS, sS, subst, put]
  | .func f ps b => zs_func f ps b (zB b)
  | .assign ts es => fun ns h => by
    simp only [evS, keeps_append] at h
    simp only [evS, sS, subst_append, zEs ts _ h.1, envTargets_s ts _ h.1, zSrc es _ _ h.2]
  | .opassign _ t e => fun ns h => by
    simp only [evS, keeps_append] at h
    simp only [evS, sS, subst_append, zE t _ h.1, zE e _ h.2]
  | .call e => fun ns h => by simp only [evS, sS] at *; exact zE e _ h
  | .print es => fun ns h => by
    simp only [evS, keeps_append] at h
    simp only [evS, sS, subst_append, zEs es _ h.1, subst, put]
theorem zI : ∀ e, ZI e
  | .long c b t => fun ns h => by
    simp only [evI, Keeps, keeps_append, t_enter, t_leave, List.drop_zero] at h
    simp only [evI, sI, subst, put, subst_append, t_enter, t_leave, List.drop_zero, zE c _ h.1, zB b _ h.2.2.1, zT t _ h.2.2.2.2]
  | .short c b _ => fun ns h => by
    simp only [evI, Keeps, keeps_append, t_enter, List.drop_zero] at h
    simp only [evI, sI, subst, put, subst_append, t_enter, List.drop_zero, zE c _ h.1, zB b _ h.2.2.1]
  | .shortElse c b d _ => fun ns h => by
    simp only [evI, Keeps, keeps_append, t_enter, t_leave, List.drop_zero] at h
    simp only [evI, sI, subst, put, subst_append, t_enter, t_leave, List.drop_zero, zE c _ h.1, zB b _ h.2.2.1, zB d _ h.2.2.2.2.2.1]
theorem zT : ∀ e, ZT e
  | .end_ => fun ns h => by simp only [evT, sT, subst]
  | .else_ b => fun ns h => by
    simp only [evT, Keeps, keeps_append, t_enter, List.drop_zero] at h
    simp only [evT, sT, subst, put, subst_append, t_enter, List.drop_zero, zB b _ h.2.1]
  | .elseif_ i => fun ns h => by simp only [evT, sT] at *; exact zI i _ h
theorem zB : ∀ e, ZB e
  | .nil => fun ns h => by simp only [evB, sB, subst]
  | .semi b => fun ns h => by simp only [evB, sB] at *; exact zB b _ h
  | .cons s b => fun ns h => by
    simp only [evB, keeps_append] at h
    simp only [evB, sB, subst_append, zS s _ h.1, zB b _ h.2]
end

theorem evRoot_s (b : Block) (ns : List Nm) (h : Keeps ns (evRoot b)) : evRoot (sB ns b) = subst ns (evRoot b) := by
  simp only [evRoot, Keeps, keeps_append, t_enter, List.drop_zero] at h
  simp only [evRoot, subst, put, subst_append, t_enter, List.drop_zero, zB b _ h.2.1]

end Verif.Resolve
