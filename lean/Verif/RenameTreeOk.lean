import Verif.RenameTreeRun
import Verif.ScopeEnv
import Verif.Props.Rename
import Verif.Props.Resolve
/-
A parsed program meets the assumptions of C28, and the new names keep what its nodes refer to.
-/
namespace Verif.Resolve
open Syntax

/-! ### Finding a name in a chain of scopes -/

theorem findIn_some {D : List RVar} {x : Nm} {v : RVar} : ∀ {l : List Nat}, findIn x (framesOf D l) = some v →
    v ∈ D ∧ v.name = x ∧ (frameOf D v.scope).vars.find? (fun v => decide (v.name = x)) = some v ∧
      ∃ a c, l = a ++ v.scope :: c ∧ ∀ d ∈ D, d.name = x → d.scope ∉ a
  | [], h => by simp [framesOf, findIn] at h
  | i :: l, h => by
    simp only [framesOf, List.map_cons, findIn] at h
    cases hf : (frameOf D i).vars.find? (fun v => decide (v.name = x)) with
    | some w =>
      rw [hf] at h
      simp only [Option.some.injEq] at h
      subst h
      have hm := List.mem_of_find?_eq_some hf
      have hn := List.find?_some hf
      simp only [frameOf, List.mem_reverse, List.mem_filter, decide_eq_true_eq] at hm hn
      refine ⟨hm.1, hn, by rw [hm.2]; exact hf, [], l, by simp [hm.2], by simp⟩
    | none =>
      rw [hf] at h
      obtain ⟨h1, h2, h3, a, c, h4, h5⟩ := findIn_some (l := l) h
      refine ⟨h1, h2, h3, i :: a, c, by simp [h4], ?_⟩
      intro d hd hdx hc
      rcases List.mem_cons.1 hc with hc | hc
      · rw [List.find?_eq_none] at hf
        exact hf d (by simp [frameOf, hd, hc]) (by simp [hdx])
      · exact h5 d hd hdx hc

theorem findIn_none {D : List RVar} {x : Nm} : ∀ {l : List Nat}, findIn x (framesOf D l) = none → ∀ d ∈ D, d.name = x → d.scope ∉ l
  | [], _, _, _, _ => by simp
  | i :: l, h, d, hd, hdx => by
    simp only [framesOf, List.map_cons, findIn] at h
    cases hf : (frameOf D i).vars.find? (fun v => decide (v.name = x)) with
    | some w => rw [hf] at h; cases h
    | none =>
      rw [hf] at h
      intro hc
      rcases List.mem_cons.1 hc with hc | hc
      · rw [List.find?_eq_none] at hf
        exact hf d (by simp [frameOf, hd, hc]) (by simp [hdx])
      · exact findIn_none (l := l) h d hd hdx hc

section
variable {nu : RVar → Nm}

theorem ren_some {D : List RVar} {x : Nm} {v : RVar} (hv : v ∈ D) (hx : nu v = x) : ∀ (a c : List Nat), v.scope ∉ a →
    (∀ d ∈ D, nu d = x → d.scope ∈ a ++ [v.scope] → d = v) → findIn x (renFs nu (framesOf D (a ++ v.scope :: c))) = some (renV nu v)
  | [], c, _, h => by
    simp only [List.nil_append, framesOf, List.map_cons, renFs, findIn, renF]
    cases hf : ((frameOf D v.scope).vars.map (renV nu)).find? (fun v => decide (v.name = x)) with
    | none =>
      rw [List.find?_eq_none] at hf
      exact absurd (by simp [renV, hx]) (hf (renV nu v) (List.mem_map.2 ⟨v, by simp [frameOf, hv], rfl⟩))
    | some w =>
      have hm := List.mem_of_find?_eq_some hf
      have hn := List.find?_some hf
      obtain ⟨d, hd, rfl⟩ := List.mem_map.1 hm
      simp only [frameOf, List.mem_reverse, List.mem_filter, decide_eq_true_eq, renV] at hd hn
      rw [h d hd.1 (of_decide_eq_true hn) (by simp [hd.2])]
  | i :: a, c, hi, h => by
    simp only [List.cons_append, framesOf, List.map_cons, renFs, findIn, renF]
    rw [show ((frameOf D i).vars.map (renV nu)).find? (fun v => decide (v.name = x)) = none by
      rw [List.find?_eq_none]
      intro w hw
      obtain ⟨d, hd, rfl⟩ := List.mem_map.1 hw
      simp only [frameOf, List.mem_reverse, List.mem_filter, decide_eq_true_eq, renV] at hd ⊢
      intro hc
      have := h d hd.1 (of_decide_eq_true hc) (by simp [hd.2])
      subst this
      exact hi (by simp [hd.2])]
    exact ren_some hv hx a c (fun hc => hi (by simp [hc])) fun d hd hdx hc => h d hd hdx (by simp at hc ⊢; tauto)

theorem ren_none {D : List RVar} {x : Nm} : ∀ (l : List Nat), (∀ d ∈ D, nu d = x → d.scope ∉ l) → findIn x (renFs nu (framesOf D l)) = none
  | [], _ => rfl
  | i :: l, h => by
    simp only [framesOf, List.map_cons, renFs, findIn, renF]
    rw [show ((frameOf D i).vars.map (renV nu)).find? (fun v => decide (v.name = x)) = none by
      rw [List.find?_eq_none]
      intro w hw
      obtain ⟨d, hd, rfl⟩ := List.mem_map.1 hw
      simp only [frameOf, List.mem_reverse, List.mem_filter, decide_eq_true_eq, renV] at hd ⊢
      intro hc
      exact h d hd.1 (of_decide_eq_true hc) (by simp [hd.2])]
    exact ren_none l fun d hd hdx hc => h d hd hdx (by simp [hc])

/-- A name that stays with its variables is found where it was. -/
theorem ren_same {D : List RVar} {x : Nm} (h : ∀ d ∈ D, nu d = x ↔ d.name = x) : ∀ (l : List Nat),
    findIn x (renFs nu (framesOf D l)) = (findIn x (framesOf D l)).map (renV nu)
  | [] => rfl
  | i :: l => by
    have ih := ren_same h l
    have hf : ((frameOf D i).vars.map (renV nu)).find? (fun v => decide (v.name = x)) =
        ((frameOf D i).vars.find? (fun v => decide (v.name = x))).map (renV nu) := by
      have : ∀ vs : List RVar, (∀ v ∈ vs, v ∈ D) → (vs.map (renV nu)).find? (fun v => decide (v.name = x)) =
          (vs.find? (fun v => decide (v.name = x))).map (renV nu) := by
        intro vs
        induction vs with
        | nil => intro _; rfl
        | cons v vs ihv =>
          intro hvs
          have hv := h v (hvs v (by simp))
          have hd : decide ((renV nu v).name = x) = decide (v.name = x) := by simp [renV, hv]
          rw [List.map_cons, List.find?_cons, List.find?_cons, hd]
          cases decide (v.name = x)
          · exact ihv fun w hw => hvs w (by simp [hw])
          · rfl
      refine this _ ?_
      intro v hv
      simp only [frameOf, List.mem_reverse, List.mem_filter] at hv
      exact hv.1
    simp only [framesOf, List.map_cons, renFs, findIn, renF] at ih ⊢
    rw [hf]
    cases (frameOf D i).vars.find? (fun v => decide (v.name = x)) with
    | some v => rfl
    | none => exact ih

end

/-! ### Facts about the program -/

theorem upTo_append {t : Nat} : ∀ {a c : List Nat}, t ∉ a → upTo t (a ++ t :: c) = a ++ [t]
  | [], _, _ => by simp [upTo]
  | s :: a, c, h => by
    have hs : s ≠ t := fun hc => h (by simp [hc])
    have ha : t ∉ a := fun hc => h (List.mem_cons_of_mem _ hc)
    simp only [List.cons_append, upTo, if_neg hs, upTo_append ha]

theorem Linked.after {P : List (Nat × Option Nat)} {t u : Nat} : ∀ {a c : List Nat}, Linked P (a ++ t :: c) → u ∈ a → t < u
  | s :: a, c, h, hu => by
    rcases List.mem_cons.1 hu with rfl | hu
    · exact h.below t (by simp)
    · exact h.2.2.after hu

/-- What is assumed about the program and the settings. -/
structure Setting (k : Keep) (lb : List Nm) (b : Block) (bg : List Nm) : Prop where
  /-- the names that are local from the start are different -/
  nodup : (envName :: lb).Nodup
  /-- they are preserved and built-in (pico_process.py 196-213) -/
  keep : ∀ x ∈ lb, k.globals x = true
  builtin : ∀ x ∈ lb, x ∈ bg
  /-- no statement declares `_ENV` twice -/
  envOnce : ∀ v ∈ declsOf (nodes lb b), ∀ w ∈ declsOf (nodes lb b), v.name = envName → w.name = envName → v.scope = w.scope → v = w
  /-- every `goto` has a label (pico_parse.py 999) -/
  gotos : none ∉ LuaLabels.program b
  /-- a key of `_ENV` that is preserved as a member is also preserved as a global, and is seen to be taken; without this it is not treated as a global
  (pico_rename.py 235-240), see C63_env_key_counterexample -/
  envKeys : ∀ x, k.members x = true → LuaScope.Occ.key x true ∈ LuaScope.program lb b → k.globals x = true ∧
    ((∀ y, k.globals y = true) ∨ x ∈ bg ∨ ∃ e, LuaScope.Occ.glob x e ∈ LuaScope.program lb b)

section
variable {pico8 : Bool} {k : Keep} {lb : List Nm} {b : Block} {bg : List Nm}

theorem root_scope {v : RVar} (h : v ∈ (rootVars lb).reverse) : v.kind = .loc ∧ v.scope = 0 ∧ v.name ∈ envName :: lb := by
  simp only [rootVars, List.reverse_reverse, List.mem_map] at h
  obtain ⟨p, hp, rfl⟩ := h
  exact ⟨rfl, rfl, List.fst_mem_of_mem_zipIdx hp⟩

theorem root_unique (hn : (envName :: lb).Nodup) {v w : RVar} (hv : v ∈ (rootVars lb).reverse) (hw : w ∈ (rootVars lb).reverse) (h : v.name = w.name) : v = w := by
  simp only [rootVars, List.reverse_reverse, List.mem_map] at hv hw
  obtain ⟨⟨x, i⟩, hp, rfl⟩ := hv
  obtain ⟨⟨y, j⟩, hq, rfl⟩ := hw
  simp only at h
  subst h
  rw [List.mk_mem_zipIdx_iff_getElem?] at hp hq
  have hl : i < (envName :: lb).length := by
    rcases Nat.lt_or_ge i (envName :: lb).length with hl | hl
    · exact hl
    · rw [List.getElem?_eq_none hl] at hp; cases hp
  have := (List.getElem?_inj hl hn).1 (hp.trans hq.symm)
  rw [this]

theorem decl_scope {v : RVar} (h : v ∈ declsOf (nodes lb b)) : 1 ≤ v.scope := by
  rcases run_decls (evRoot b) (start lb) v h with h | h
  · simp [start, State.heads] at h
  · exact h

theorem all_cases {v : RVar} (h : v ∈ allDecls lb b) : v ∈ (rootVars lb).reverse ∨ v ∈ declsOf (nodes lb b) := List.mem_append.1 h

theorem root_of_zero {v : RVar} (h : v ∈ allDecls lb b) (h0 : v.scope = 0) : v ∈ (rootVars lb).reverse := by
  rcases all_cases h with h | h
  · exact h
  · have := decl_scope h; omega

theorem mem_declsOf {ns : List Node} {v : RVar} : v ∈ declsOf ns ↔ ∃ n ∈ ns, n.ref = .bind v := by
  simp only [declsOf, List.mem_filterMap]
  constructor
  · rintro ⟨n, hn, h⟩
    refine ⟨n, hn, ?_⟩
    cases hr : n.ref <;> simp [hr] at h
    rw [h]
  · rintro ⟨n, hn, h⟩
    exact ⟨n, hn, by simp [h]⟩

theorem mem_labelsOf {ns : List Node} {v : RVar} : v ∈ labelsOf ns ↔ ∃ n ∈ ns, n.ref = .label v := by
  simp only [labelsOf, List.mem_filterMap]
  constructor
  · rintro ⟨n, hn, h⟩
    refine ⟨n, hn, ?_⟩
    cases hr : n.ref <;> simp [hr] at h
    rw [h]
  · rintro ⟨n, hn, h⟩
    exact ⟨n, hn, by simp [h]⟩

theorem all_loc {v : RVar} (h : v ∈ allDecls lb b) : v.kind = .loc := ((nodes_ok lb b).1.vars v h).1

theorem all_lt {v : RVar} (h : v ∈ allDecls lb b) : v.scope < (final lb b).nscope := ((nodes_ok lb b).1.vars v h).2

/-- Preserved locals. -/
theorem fixed_loc {v : RVar} (hv : v.kind = .loc) {n : Nm} : (programOf pico8 k lb b).fixed v = some n ↔
    v.name = n ∧ v ∈ allDecls lb b ∧ (v.name = envName ∨ (v.scope = 0 ∧ k.globals v.name = true) ∨ impLocal (nodes lb b) v = true) := by
  simp only [programOf, fixedName, hv]
  split
  · rename_i h
    simp only [List.contains_eq_mem, Bool.and_eq_true, decide_eq_true_eq, Bool.or_eq_true, beq_iff_eq, or_assoc] at h
    simp [h]
  · rename_i h
    simp only [List.contains_eq_mem, Bool.and_eq_true, decide_eq_true_eq, Bool.or_eq_true, beq_iff_eq, or_assoc] at h
    simp only [false_iff, reduceCtorEq]
    tauto

/-- Variables from the start are preserved. -/
theorem root_fixed (hs : Setting k lb b bg) {v : RVar} (h : v ∈ (rootVars lb).reverse) : (programOf pico8 k lb b).fixed v = some v.name := by
  obtain ⟨h1, h2, h3⟩ := root_scope h
  refine (fixed_loc h1).2 ⟨rfl, List.mem_append_left _ h, ?_⟩
  rcases List.mem_cons.1 h3 with h3 | h3
  · exact Or.inl h3
  · exact Or.inr (Or.inl ⟨h2, hs.keep _ h3⟩)

/-- A preserved variable keeps its own name. -/
theorem fixed_own {v : RVar} {n : Nm} (h : (programOf pico8 k lb b).fixed v = some n) : v.name = n := by
  simp only [programOf, fixedName] at h
  cases hk : v.kind <;> simp only [hk] at h
  · split at h
    · simpa using h
    · cases h
  · split at h
    · simpa using h
    · cases h
  · split at h
    · simpa using h
    · cases h
  · cases h

theorem impLocal_iff {ns : List Node} {v : RVar} : impLocal ns v = true ↔ ∃ n ∈ ns, n.imp = true ∧ (n.ref = .bind v ∨ n.ref = .loc v) := by
  simp only [impLocal, List.any_eq_true, Bool.and_eq_true, Bool.or_eq_true, beq_iff_eq]

/-- Implicit locals of the same name in the same scope are the same. -/
theorem imp_unique {v w : RVar} (hv : impLocal (nodes lb b) v = true) (hw : impLocal (nodes lb b) w = true) (hn : v.name = w.name)
    (hs : v.scope = w.scope) : v = w := by
  obtain ⟨n, hn1, hi1, hr1⟩ := impLocal_iff.1 hv
  obtain ⟨m, hm1, hi2, hr2⟩ := impLocal_iff.1 hw
  have h1 := (nodes_ok lb b).2 n hn1
  have h2 := (nodes_ok lb b).2 m hm1
  have hne : selfName ≠ printName := by decide
  rcases hr1 with hr1 | hr1 <;> rcases hr2 with hr2 | hr2 <;> simp only [NodeOk, hr1, hr2] at h1 h2
  · -- two `self`s in one scope are the same node
    have hd := (run_self (evRoot b) (start lb)).1
    have key : ∀ ns : List Node, (selfScopes ns).Nodup → n ∈ ns → m ∈ ns → n = m := by
      intro ns
      induction ns with
      | nil => intro _ h; simp at h
      | cons a ns ih =>
        intro hnd hna hma
        have ha : ∀ q : Node, q.imp = true → ∀ u, q.ref = .bind u → u.scope = v.scope → selfScopes (q :: ns) = v.scope :: selfScopes ns := by
          intro q hq u hu hus; simp [selfScopes, hq, hu, hus]
        have hin : ∀ q ∈ ns, q.imp = true → ∀ u, q.ref = .bind u → u.scope = v.scope → v.scope ∈ selfScopes ns := by
          intro q hq hqi u hu hus
          simp only [selfScopes, List.mem_filterMap]
          exact ⟨q, hq, by simp [hu, hqi, hus]⟩
        have htail : (selfScopes ns).Nodup := by
          have : (selfScopes (a :: ns)).Nodup := hnd
          simp only [selfScopes, List.filterMap_cons] at this
          split at this
          · exact this
          · exact (List.nodup_cons.1 this).2
        rcases List.mem_cons.1 hna with hna' | hna' <;> rcases List.mem_cons.1 hma with hma' | hma'
        · rw [hna', hma']
        · subst hna'
          rw [ha n hi1 v hr1 rfl, List.nodup_cons] at hnd
          exact absurd (hin m hma' hi2 w hr2 hs.symm) hnd.1
        · subst hma'
          rw [ha m hi2 w hr2 hs.symm, List.nodup_cons] at hnd
          exact absurd (hin n hna' hi1 v hr1 rfl) hnd.1
        · exact ih htail hna' hma'
    have := key _ hd hn1 hm1
    subst this
    rw [hr1] at hr2
    cases hr2
    rfl
  · have e1 := h1.2.2.2.2 hi1
    have e2 := h2.2.2 hi2
    have e3 := (findIn_some h2.1).2.1
    exact absurd (e1.symm.trans (h1.2.1.symm.trans (hn.trans (e3.trans e2)))) hne
  · have e1 := h2.2.2.2.2 hi2
    have e2 := h1.2.2 hi1
    have e3 := (findIn_some h1.1).2.1
    exact absurd (e1.symm.trans (h2.2.1.symm.trans (hn.symm.trans (e3.trans e2)))) hne
  · have f1 := findIn_some h1.1
    have f2 := findIn_some h2.1
    have e1 := h1.2.2 hi1
    have e2 := h2.2.2 hi2
    have g1 := f1.2.2.1
    have g2 := f2.2.2.1
    rw [e1] at g1
    rw [e2, ← hs, g1] at g2
    simpa using g2

/-- Preserved locals of the same name in the same scope are the same. -/
theorem fixed_unique (hs : Setting k lb b bg) {v w : RVar} {n : Nm} (hkv : v.kind = .loc) (hkw : w.kind = .loc)
    (hv : (programOf pico8 k lb b).fixed v = some n) (hw : (programOf pico8 k lb b).fixed w = some n) (hsc : v.scope = w.scope) : v = w := by
  obtain ⟨hv1, hv2, hv3⟩ := (fixed_loc hkv).1 hv
  obtain ⟨hw1, hw2, hw3⟩ := (fixed_loc hkw).1 hw
  have hnm : v.name = w.name := hv1.trans hw1.symm
  by_cases h0 : v.scope = 0
  · exact root_unique hs.nodup (root_of_zero hv2 h0) (root_of_zero hw2 (hsc ▸ h0)) hnm
  · have h0' : w.scope ≠ 0 := hsc ▸ h0
    have dv : v ∈ declsOf (nodes lb b) := (all_cases hv2).resolve_left fun h => h0 (root_scope h).2.1
    have dw : w ∈ declsOf (nodes lb b) := (all_cases hw2).resolve_left fun h => h0' (root_scope h).2.1
    by_cases he : v.name = envName
    · exact hs.envOnce v dv w dw he (hnm ▸ he) hsc
    · have he' : w.name ≠ envName := hnm ▸ he
      exact imp_unique ((hv3.resolve_left he).resolve_left fun h => h0 h.1) ((hw3.resolve_left he').resolve_left fun h => h0' h.1) hnm hsc

theorem findVar_mem {items : List (RVar × List Nat)} {name : List Nat} {v : RVar} : ∀ {l : List Nat}, findVar items name l = some v →
    (v, name) ∈ items ∧ v.scope ∈ l
  | [], h => by simp [findVar] at h
  | s :: l, h => by
    simp only [findVar] at h
    cases hl : (items.filter fun d => d.1.scope = s && d.2 = name).getLast? with
    | none =>
      rw [hl] at h
      have := findVar_mem (l := l) h
      exact ⟨this.1, List.mem_cons_of_mem _ this.2⟩
    | some d =>
      rw [hl] at h
      simp only [Option.some.injEq] at h
      subst h
      have hm := List.mem_of_getLast? hl
      simp only [List.mem_filter, Bool.and_eq_true, decide_eq_true_eq] at hm
      exact ⟨by rw [← hm.2.2]; exact hm.1, by simp [hm.2.1]⟩

theorem findVar_none_all {items : List (RVar × List Nat)} {name : List Nat} : ∀ {l : List Nat}, findVar items name l = none →
    ∀ d ∈ items, d.2 = name → d.1.scope ∉ l
  | [], _, _, _, _ => by simp
  | s :: l, h, d, hd, hn => by
    simp only [findVar] at h
    cases hl : (items.filter fun d => d.1.scope = s && d.2 = name).getLast? with
    | some d => rw [hl] at h; cases h
    | none =>
      rw [hl] at h
      intro hc
      rcases List.mem_cons.1 hc with hc | hc
      · rw [List.getLast?_eq_none_iff, List.filter_eq_nil_iff] at hl
        exact hl d hd (by simp [hc, hn])
      · exact findVar_none_all (l := l) h d hd hn hc

theorem chain_of {n : Node} {free : Nat} {P : List (Nat × Option Nat)} (hl : Linked P n.chain) (hne : n.chain ≠ []) :
    scopeChain (parentOf P) (n.chain.headD free) = n.chain := by
  cases hc : n.chain with
  | nil => exact absurd hc hne
  | cons a r => rw [hc] at hl; rw [List.headD_cons]; exact hl.chain

theorem chain_free (lb : List Nm) (b : Block) : scopeChain (parentOf (final lb b).parents) (final lb b).nscope = [(final lb b).nscope] := by
  rw [scopeChain]
  cases h : parentOf (final lb b).parents (final lb b).nscope with
  | none => rfl
  | some p =>
    unfold parentOf at h
    cases hl : (final lb b).parents.lookup (final lb b).nscope with
    | none => rw [hl] at h; cases h
    | some o => have := (nodes_ok lb b).1.keys _ _ hl; omega

/-- A node that refers to a local. -/
def RefLoc (n : Node) (v : RVar) : Prop := n.ref = .bind v ∨ n.ref = .loc v ∨ n.ref = .glob (some v)

theorem refLoc_ok {n : Node} (hn : n ∈ nodes lb b) {v : RVar} (h : RefLoc n v) : v ∈ allDecls lb b ∧ n.chain ≠ [] ∧
    Linked (final lb b).parents n.chain ∧ ∃ a c, n.chain = a ++ v.scope :: c ∧ ∀ d ∈ allDecls lb b, d.name = v.name → d.scope ∉ a := by
  have hok := (nodes_ok lb b).2 n hn
  rcases h with h | h | h <;> simp only [NodeOk, h] at hok
  · obtain ⟨h1, h2, h3, h4, -⟩ := hok
    cases hc : n.chain with
    | nil => rw [hc] at h3; cases h3
    | cons i r =>
      rw [hc] at h3 h4
      simp only [List.head?_cons, Option.some.injEq] at h3
      exact ⟨h1, by simp, h4, [], r, by simp [h3], by simp⟩
  · obtain ⟨h1, h2, -⟩ := hok
    obtain ⟨f1, f2, -, a, c, f3, f4⟩ := findIn_some h1
    exact ⟨f1, by simp [f3], h2, a, c, f3, fun d hd hdn => f4 d hd (hdn.trans f2)⟩
  · obtain ⟨-, h1, h2⟩ := hok
    obtain ⟨f1, f2, -, a, c, f3, f4⟩ := findIn_some h1
    exact ⟨f1, by simp [f3], h2, a, c, f3, fun d hd hdn => f4 d hd (hdn.trans f2)⟩

theorem mem_decls {v : RVar} : v ∈ (programOf pico8 k lb b).decls ↔ v ∈ allDecls lb b ∧ ∃ n ∈ nodes lb b, RefLoc n v := by
  simp only [programOf, List.mem_filter, List.any_eq_true, Bool.or_eq_true, beq_iff_eq, RefLoc, or_assoc]

/-- What a use can be. -/
inductive UseOk (pico8 : Bool) (k : Keep) (lb : List Nm) (b : Block) (u : Use) : Prop
  | loc (n : Node) (hn : n ∈ nodes lb b) (v : RVar) (hr : RefLoc n v) (hu : u = ⟨n.chain.headD (final lb b).nscope, v, false⟩)
      (hc : scopeChain (programOf pico8 k lb b).parent u.scope = n.chain)
  | glob (x : Nm) (hv : u.var = globVar x) (hm : u.asMember = false)
      (hd : ∀ d ∈ allDecls lb b, d.name = x → d.scope ∉ scopeChain (programOf pico8 k lb b).parent u.scope)
  | mem (x : Nm) (hv : u.var = memVar x) (hm : u.asMember = false)
  | lab (n : Node) (hn : n ∈ nodes lb b) (v : RVar) (hr : n.ref = .label v ∨ (n.ref = .goto_ ∧ gotoLabel (nodes lb b) n = some v))
      (hu : u = ⟨n.chain.headD (final lb b).nscope, v, false⟩) (hc : scopeChain (programOf pico8 k lb b).labParent u.scope = n.chain)

theorem mem_uses {u : Use} : u ∈ (programOf pico8 k lb b).uses ↔ ∃ n ∈ nodes lb b, u ∈ usesOf k (nodes lb b) (final lb b).nscope n := by
  simp only [programOf, List.mem_flatMap]

theorem use_ok {u : Use} (hu : u ∈ (programOf pico8 k lb b).uses) : UseOk pico8 k lb b u := by
  obtain ⟨n, hn, hu⟩ := mem_uses.1 hu
  have hok := (nodes_ok lb b).2 n hn
  have loc : ∀ v, RefLoc n v → u = ⟨n.chain.headD (final lb b).nscope, v, false⟩ → UseOk pico8 k lb b u := by
    intro v hr hu
    obtain ⟨-, h1, h2, -⟩ := refLoc_ok hn hr
    exact .loc n hn v hr hu (by rw [hu]; exact chain_of h2 h1)
  unfold usesOf at hu
  cases hr : n.ref with
  | bind v => rw [hr] at hu; exact loc v (Or.inl hr) (List.mem_singleton.1 hu)
  | loc v => rw [hr] at hu; exact loc v (Or.inr (Or.inl hr)) (List.mem_singleton.1 hu)
  | glob env =>
    rw [hr] at hu
    rcases List.mem_cons.1 hu with hu | hu
    · simp only [NodeOk, hr] at hok
      refine .glob n.name (by rw [hu]) (by rw [hu]) ?_
      intro d hd hdn
      rw [hu]
      by_cases hc : n.chain = []
      · simp only [programOf, hc, List.headD_nil, chain_free, List.mem_singleton]
        have := all_lt hd
        omega
      · simp only [programOf]
        rw [chain_of hok.2.2 hc]
        exact findIn_none hok.1 d hd hdn
    · cases env with
      | none => simp at hu
      | some v => exact loc v (Or.inr (Or.inr hr)) (by simpa using hu)
  | mem f =>
    rw [hr] at hu
    have hu := List.mem_singleton.1 hu
    unfold keyVar at hu
    split at hu
    · refine .glob n.name (by rw [hu]) (by rw [hu]) ?_
      intro d hd hdn
      rw [hu]
      simp only [programOf, chain_free, List.mem_singleton]
      have := all_lt hd
      omega
    · exact .mem n.name (by rw [hu]) (by rw [hu])
  | label v =>
    rw [hr] at hu
    have hu := List.mem_singleton.1 hu
    simp only [NodeOk, hr] at hok
    refine .lab n hn v (Or.inl hr) hu ?_
    rw [hu]
    refine chain_of hok.2.2.2.1 ?_
    intro hc
    rw [hc] at hok
    simp at hok
  | goto_ =>
    rw [hr] at hu
    simp only [NodeOk, hr] at hok
    cases hg : gotoLabel (nodes lb b) n with
    | none => rw [hg] at hu; simp at hu
    | some v =>
      rw [hg] at hu
      have hu : u = ⟨n.chain.headD (final lb b).nscope, v, false⟩ := by simpa using hu
      refine .lab n hn v (Or.inr ⟨hr, hg⟩) hu ?_
      rw [hu]
      exact chain_of hok.2.1 hok.1

theorem label_kind {v : RVar} (h : v ∈ labelsOf (nodes lb b)) : v.kind = .lab := by
  obtain ⟨n, hn, hr⟩ := mem_labelsOf.1 h
  have hok := (nodes_ok lb b).2 n hn
  simp only [NodeOk, hr] at hok
  exact hok.1

theorem goto_mem {n : Node} {v : RVar} (h : gotoLabel (nodes lb b) n = some v) : v ∈ labelsOf (nodes lb b) ∧ v.name = n.name ∧ v.scope ∈ n.chain := by
  obtain ⟨h1, h2⟩ := findVar_mem h
  obtain ⟨w, hw, he⟩ := List.mem_map.1 h1
  simp only [Prod.mk.injEq] at he
  obtain ⟨rfl, hn⟩ := he
  exact ⟨hw, hn, h2⟩

/-- A parsed program meets the assumptions of C28. -/
theorem program_ok (hs : Setting k lb b bg) : (programOf pico8 k lb b).Ok where
  useLocal := by
    intro u hu hk
    cases use_ok hu with
    | loc n hn v hr hu hc =>
      obtain ⟨h1, -, -, a, c, h3, -⟩ := refLoc_ok hn hr
      refine ⟨by rw [hu]; exact mem_decls.2 ⟨h1, n, hn, hr⟩, ?_, by rw [hu]⟩
      rw [hc, hu, h3]
      simp
    | glob x hv => rw [hv] at hk; cases hk
    | mem x hv => rw [hv] at hk; cases hk
    | lab n hn v hr hu hc =>
      exfalso
      have : v.kind = .lab := by
        rcases hr with hr | hr
        · exact label_kind (mem_labelsOf.2 ⟨n, hn, hr⟩)
        · exact label_kind (goto_mem hr.2).1
      rw [hu] at hk
      simp [this] at hk
  useLabel := by
    intro u hu hk
    cases use_ok hu with
    | loc n hn v hr hu hc =>
      have := all_loc (refLoc_ok hn hr).1
      rw [hu] at hk
      simp [this] at hk
    | glob x hv => rw [hv] at hk; cases hk
    | mem x hv => rw [hv] at hk; cases hk
    | lab n hn v hr hu hc =>
      rcases hr with hr | hr
      · refine ⟨by rw [hu]; exact mem_labelsOf.2 ⟨n, hn, hr⟩, ?_, by rw [hu]⟩
        have hok := (nodes_ok lb b).2 n hn
        simp only [NodeOk, hr] at hok
        rw [hc, hu]
        exact List.mem_of_mem_head? hok.2.2.1
      · refine ⟨by rw [hu]; exact (goto_mem hr.2).1, ?_, by rw [hu]⟩
        rw [hc, hu]
        exact (goto_mem hr.2).2.2
  declUse := by
    intro v hv
    obtain ⟨h1, n, hn, hr⟩ := mem_decls.1 hv
    refine ⟨all_loc h1, ⟨n.chain.headD (final lb b).nscope, v, false⟩, mem_uses.2 ⟨n, hn, ?_⟩, rfl⟩
    rcases hr with hr | hr | hr <;> simp [usesOf, hr]
  labelUse := by
    intro v hv
    obtain ⟨n, hn, hr⟩ := mem_labelsOf.1 hv
    have hok := (nodes_ok lb b).2 n hn
    simp only [NodeOk, hr] at hok
    refine ⟨hok.1, ⟨n.chain.headD (final lb b).nscope, v, false⟩, mem_uses.2 ⟨n, hn, by simp [usesOf, hr]⟩, rfl, ?_⟩
    cases hc : n.chain with
    | nil => rw [hc] at hok; simp at hok
    | cons a r =>
      rw [hc] at hok
      simpa using hok.2.2.1
  useGlobal := by
    intro u hu hk
    cases use_ok hu with
    | loc n hn v hr hu hc =>
      have := all_loc (refLoc_ok hn hr).1
      rw [hu] at hk
      simp [this] at hk
    | glob x hv => rw [hv]; rfl
    | mem x hv => rw [hv] at hk; cases hk
    | lab n hn v hr hu hc =>
      exfalso
      have : v.kind = .lab := by
        rcases hr with hr | hr
        · exact label_kind (mem_labelsOf.2 ⟨n, hn, hr⟩)
        · exact label_kind (goto_mem hr.2).1
      rw [hu] at hk
      simp [this] at hk
  useMember := by
    intro u hu hm
    cases use_ok hu with
    | loc n hn v hr hu hc => rw [hu] at hm; cases hm
    | glob x hv hm' => rw [hm'] at hm; cases hm
    | mem x hv hm' => rw [hm'] at hm; cases hm
    | lab n hn v hr hu hc => rw [hu] at hm; cases hm
  fixedOk := by
    intro v w m hv hw hne hkk hkl
    have hl : v.kind = .loc := by
      rcases hkl with h | h
      · exact h
      · simp [programOf, fixedName, h] at hv
    have hl' : w.kind = .loc := hkk ▸ hl
    have one : ∀ {v w : RVar}, v.kind = .loc → w.kind = .loc → (programOf pico8 k lb b).fixed v = some m →
        (programOf pico8 k lb b).fixed w = some m → v ≠ w → ¬ Clash1 (programOf pico8 k lb b).used v w := by
      intro v w hl hl' hv hw hne hcl
      simp only [Clash1, hl, hl', Program.used, List.mem_map, List.mem_filter, Bool.and_eq_true, decide_eq_true_eq, List.contains_eq_mem] at hcl
      obtain ⟨u, ⟨hu, hk, hin⟩, huv⟩ := hcl
      cases use_ok hu with
      | loc n hn v' hr hu hc =>
        have hvv : v' = v := by rw [hu] at huv; exact huv
        subst hvv
        obtain ⟨h1, -, -, a, c, h3, h4⟩ := refLoc_ok hn hr
        have hnm : v'.name = w.name := (fixed_own hv).trans (fixed_own hw).symm
        have hw2 := ((fixed_loc hl').1 hw).2.1
        rw [hc, huv, h3, upTo_append (h4 v' h1 rfl)] at hin
        rcases List.mem_append.1 hin with hin | hin
        · exact h4 w hw2 hnm.symm hin
        · exact hne (fixed_unique hs hl hl' hv hw (List.mem_singleton.1 hin).symm)
      | glob x hv => rw [hv] at hk; cases hk
      | mem x hv => rw [hv] at hk; cases hk
      | lab n hn v hr hu hc =>
        have : v.kind = .lab := by
          rcases hr with hr | hr
          · exact label_kind (mem_labelsOf.2 ⟨n, hn, hr⟩)
          · exact label_kind (goto_mem hr.2).1
        rw [hu] at hk
        simp [this] at hk
    rintro (h | h)
    · exact one hl hl' hv hw hne h
    · exact one hl' hl hw hv hne.symm h
  fixedGlobal := by
    intro u hu hk w hw m hm hwm
    cases use_ok hu with
    | loc n hn v hr hu hc =>
      have := all_loc (refLoc_ok hn hr).1
      rw [hu] at hk
      simp [this] at hk
    | glob x hv hm' hd =>
      refine hd w (mem_decls.1 hw).1 ?_
      have he : u.eff = globVar x := by simp [Use.eff, hm', hv]
      rw [he] at hm
      rw [fixed_own hwm, ← fixed_own hm]
      rfl
    | mem x hv => rw [hv] at hk; cases hk
    | lab n hn v hr hu hc =>
      exfalso
      have : v.kind = .lab := by
        rcases hr with hr | hr
        · exact label_kind (mem_labelsOf.2 ⟨n, hn, hr⟩)
        · exact label_kind (goto_mem hr.2).1
      rw [hu] at hk
      simp [this] at hk

end

end Verif.Resolve
