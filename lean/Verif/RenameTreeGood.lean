import Verif.RenameTreeOk
/-
The new names keep what the nodes of a parsed program refer to.
-/
namespace Verif.Resolve
open Syntax

/-- `r` is a result of choosing names for a program (pico_rename.py 382-444), with any settings, any order of the variables and any number of
turns of the loop; `bg` and `bm` are the built-in names. -/
def Renames (P : Program) (bg bm : List Nm) (r : List (RVar × Nm)) : Prop :=
  ∃ (focusChars : Bool) (az : List RVar) (focus : Focus) (order : List Nat) (ls gs ms bs : List RVar) (fuel : Nat), order.Nodup ∧
    StartOk ls gs ms bs ∧ P.Starts (ls ++ gs ++ ms ++ bs) ∧
    renameLoop (P.cfg focusChars bg bm az) (ident (identChars focus order)) fuel 0 (startSt ls gs ms bs) = some r

section
variable {P : Program} {bg bm : List Nm} {r : List (RVar × Nm)}

theorem newOf_some {v : RVar} {n : Nm} (h : P.newName r v = some n) : newOf P r v = n := by simp [newOf, h]

theorem newOf_fixed {v : RVar} {n : Nm} (h : P.fixed v = some n) : newOf P r v = n := by simp [newOf, Program.newName, h]

theorem newOf_free {v : RVar} (h : P.fixed v = none) (h' : P.newName r v = some (newOf P r v)) : (v, newOf P r v) ∈ r := by
  unfold Program.newName at h'
  rw [h] at h'
  exact rename_lookup_mem h'

/-- Only names that are not preserved change. -/
theorem newOf_new {v : RVar} (h : newOf P r v ≠ v.name) (hf : ∀ n, P.fixed v = some n → v.name = n) : P.fixed v = none ∧ (v, newOf P r v) ∈ r := by
  cases hp : P.fixed v with
  | some n => exact absurd ((newOf_fixed hp).trans (hf n hp).symm) h
  | none =>
    refine ⟨rfl, newOf_free hp ?_⟩
    unfold newOf at h ⊢
    cases hn : P.newName r v with
    | none => rw [hn] at h; exact absurd rfl h
    | some n => rfl

theorem Renames.notEnv (hr : Renames P bg bm r) {v : RVar} {n : Nm} (h : (v, n) ∈ r) (hk : v.kind ≠ .lab) : n ≠ envName := by
  obtain ⟨_, _, _, _, _, _, _, _, _, ho, hs, _, hr⟩ := hr
  exact ((C27_preserved ho hs hr h).1 hk).1

theorem Renames.notBuiltin (hr : Renames P bg bm r) {v : RVar} {n : Nm} (h : (v, n) ∈ r) (hk : v.kind = .glob) : n ∉ bg := by
  obtain ⟨_, _, _, _, _, _, _, _, _, ho, hs, _, hr⟩ := hr
  intro hn
  refine ((C27_preserved ho hs hr h).1 (by simp [hk])).2.1 (by simp [Program.cfg, hn]) (Or.inl ?_)
  simp [Clash1, hk, globVar]

theorem Renames.notBuiltinMember (hr : Renames P bg bm r) {v : RVar} {n : Nm} (h : (v, n) ∈ r) (hk : v.kind = .mem) : n ∉ bm := by
  obtain ⟨_, _, _, _, _, _, _, _, _, ho, hs, _, hr⟩ := hr
  intro hn
  refine ((C27_preserved ho hs hr h).1 (by simp [hk])).2.2.1 (by simp [Program.cfg, hn]) (Or.inl ?_)
  simp [Clash1, hk, memVar]

theorem Renames.hasName (hr : Renames P bg bm r) {v : RVar} (h : ∃ u ∈ P.uses, u.eff = v) : P.newName r v = some (newOf P r v) := by
  obtain ⟨_, _, _, _, _, _, _, _, _, ho, hs, hst, hr⟩ := hr
  obtain ⟨n, hn⟩ := has_name ho hs hst hr h
  rw [hn, newOf_some hn]

theorem Renames.sameName (hr : Renames P bg bm r) (hP : P.Ok) {v w : RVar} (hk : v.kind = w.kind) (hl : v.kind = .loc ∨ v.kind = .lab)
    (hvu : ∃ u ∈ P.uses, u.var = v) (hwu : ∃ u ∈ P.uses, u.var = w) {n : Nm} (hv : P.newName r v = some n) (hw : P.newName r w = some n)
    (hne : v ≠ w) : ¬ Clash P.used v w := by
  obtain ⟨_, _, _, _, _, _, _, _, _, ho, hs, hst, hr⟩ := hr
  exact same_name_ok hP ho hs hr hk hl hvu hwu hv hw hne

end

section
variable {pico8 : Bool} {k : Keep} {lb : List Nm} {b : Block} {bg bm : List Nm} {r : List (RVar × Nm)}

theorem eff_loc {u : Use} (hu : u ∈ (programOf pico8 k lb b).uses) : u.eff = u.var := by
  cases use_ok hu with
  | loc n hn v hr hu hc => rw [hu]; rfl
  | glob x hv hm => simp [Use.eff, hm]
  | mem x hv hm => simp [Use.eff, hm]
  | lab n hn v hr hu hc => rw [hu]; rfl

/-- Every variable that a node is about is used. -/
theorem node_use {n : Node} (hn : n ∈ nodes lb b) {v : RVar} (h : RefLoc n v) :
    (⟨n.chain.headD (final lb b).nscope, v, false⟩ : Use) ∈ (programOf pico8 k lb b).uses :=
  mem_uses.2 ⟨n, hn, by rcases h with h | h | h <;> simp [usesOf, h]⟩

/-- A local that no node is about is there from the start. -/
theorem unused_root {v : RVar} (h : v ∈ allDecls lb b) (hd : v ∉ (programOf pico8 k lb b).decls) : v ∈ (rootVars lb).reverse := by
  refine (all_cases h).resolve_right fun hc => hd (mem_decls.2 ⟨h, ?_⟩)
  obtain ⟨n, hn, hr⟩ := mem_declsOf.1 hc
  exact ⟨n, hn, Or.inl hr⟩

theorem nm_some (hs : Setting k lb b bg) (hr : Renames (programOf pico8 k lb b) bg bm r) {v : RVar} (h : v ∈ allDecls lb b) :
    (programOf pico8 k lb b).newName r v = some (newOf (programOf pico8 k lb b) r v) := by
  by_cases hd : v ∈ (programOf pico8 k lb b).decls
  · obtain ⟨-, n, hn, hr'⟩ := mem_decls.1 hd
    exact hr.hasName ⟨_, node_use hn hr', rfl⟩
  · have hf := root_fixed (pico8 := pico8) hs (unused_root h hd)
    rw [newOf_fixed hf, Program.newName, hf]

/-- `_ENV` stays `_ENV`, and nothing else becomes `_ENV`. -/
theorem env_iff (hs : Setting k lb b bg) (hr : Renames (programOf pico8 k lb b) bg bm r) {v : RVar} (h : v ∈ allDecls lb b) :
    newOf (programOf pico8 k lb b) r v = envName ↔ v.name = envName := by
  cases hf : (programOf pico8 k lb b).fixed v with
  | some n => rw [newOf_fixed hf, fixed_own hf]
  | none =>
    have h1 := hr.notEnv (newOf_free hf (nm_some hs hr h)) (by simp [all_loc h])
    have h2 : v.name ≠ envName := fun hc => by
      rw [(fixed_loc (all_loc h)).2 ⟨rfl, h, Or.inl hc⟩] at hf
      cases hf
    simp [h1, h2]

theorem good_loc (hs : Setting k lb b bg) (hr : Renames (programOf pico8 k lb b) bg bm r) {n : Node} (hn : n ∈ nodes lb b) {v : RVar}
    (h : n.ref = .loc v) : findIn (newOf (programOf pico8 k lb b) r v) (renFs (newOf (programOf pico8 k lb b) r) (framesOf (allDecls lb b) n.chain)) =
      some (renV (newOf (programOf pico8 k lb b) r) v) := by
  have hP := program_ok (pico8 := pico8) hs
  obtain ⟨h1, hne, hlk, a, c, h3, h4⟩ := refLoc_ok hn (Or.inr (Or.inl h))
  have hva := h4 v h1 rfl
  rw [h3]
  refine ren_some h1 rfl a c hva ?_
  intro d hd hdn hsc
  have hvd : v ∈ (programOf pico8 k lb b).decls := mem_decls.2 ⟨h1, n, hn, Or.inr (Or.inl h)⟩
  by_cases hdd : d ∈ (programOf pico8 k lb b).decls
  · by_contra hdv
    have hu := node_use (pico8 := pico8) (k := k) hn (Or.inr (Or.inl h) : RefLoc n v)
    refine hr.sameName hP ((all_loc h1).trans (all_loc hd).symm) (Or.inl (all_loc h1)) (hP.declUse v hvd).2 (hP.declUse d hdd).2
      (nm_some hs hr h1) (by rw [← hdn]; exact nm_some hs hr hd) (fun hc => hdv hc.symm) (Or.inl ?_)
    simp only [Clash1, all_loc h1, all_loc hd, Program.used, List.mem_map, List.mem_filter, Bool.and_eq_true, decide_eq_true_eq,
      List.contains_eq_mem]
    refine ⟨_, ⟨hu, all_loc h1, ?_⟩, rfl⟩
    have hch : scopeChain (programOf pico8 k lb b).parent (n.chain.headD (final lb b).nscope) = n.chain := chain_of hlk hne
    simp only [hch]
    rw [h3, upTo_append hva]
    exact hsc
  · have hdr := unused_root hd hdd
    have hd0 := (root_scope hdr).2.1
    rcases List.mem_append.1 hsc with hsc | hsc
    · rw [h3] at hlk
      have := hlk.after hsc
      omega
    · have hv0 : v.scope = 0 := by rw [← List.mem_singleton.1 hsc, hd0]
      have hvr := root_of_zero h1 hv0
      rw [newOf_fixed (root_fixed hs hdr), newOf_fixed (root_fixed hs hvr)] at hdn
      exact root_unique hs.nodup hdr hvr hdn

theorem glob_use {n : Node} (hn : n ∈ nodes lb b) {env : Option RVar} (h : n.ref = .glob env) :
    (⟨n.chain.headD (final lb b).nscope, globVar n.name, false⟩ : Use) ∈ (programOf pico8 k lb b).uses :=
  mem_uses.2 ⟨n, hn, by simp [usesOf, h]⟩

theorem good_glob (hs : Setting k lb b bg) (hr : Renames (programOf pico8 k lb b) bg bm r) {n : Node} (hn : n ∈ nodes lb b) {env : Option RVar}
    (h : n.ref = .glob env) : findIn (newOf (programOf pico8 k lb b) r (globVar n.name))
      (renFs (newOf (programOf pico8 k lb b) r) (framesOf (allDecls lb b) n.chain)) = none := by
  have hP := program_ok (pico8 := pico8) hs
  have hok := (nodes_ok lb b).2 n hn
  simp only [NodeOk, h] at hok
  have hu := glob_use (pico8 := pico8) (k := k) hn h
  refine ren_none _ ?_
  intro d hd hdn
  by_cases hc : n.chain = []
  · simp [hc]
  by_cases hdd : d ∈ (programOf pico8 k lb b).decls
  · have hg : ∃ m, (programOf pico8 k lb b).newName r (globVar n.name) = some m ∧
        findVar ((programOf pico8 k lb b).newItems r (programOf pico8 k lb b).decls) m n.chain = none := by
      obtain ⟨_, _, _, _, _, _, _, _, _, ho, hs', hst, hr'⟩ := hr
      have := C28_global hP ho hs' hst hr' hu rfl
      have hch : scopeChain (programOf pico8 k lb b).parent (n.chain.headD (final lb b).nscope) = n.chain := chain_of hok.2.2 hc
      simp only [hch] at this
      exact this
    obtain ⟨m, hm, hf⟩ := hg
    refine findVar_none_all hf (d, m) (mem_newItems.2 ⟨hdd, ?_⟩) rfl
    rw [nm_some hs hr hd, hdn, newOf_some hm]
  · have hdr := unused_root hd hdd
    rw [newOf_fixed (root_fixed hs hdr)] at hdn
    cases hf : (programOf pico8 k lb b).fixed (globVar n.name) with
    | some m =>
      rw [newOf_fixed hf] at hdn
      exact findIn_none hok.1 d hd (hdn.trans (fixed_own hf).symm)
    | none =>
      have hin := newOf_free hf (hr.hasName ⟨_, hu, rfl⟩)
      rw [← hdn] at hin
      rcases List.mem_cons.1 (root_scope hdr).2.2 with he | he
      · exact absurd he (hr.notEnv hin (by simp [globVar]))
      · exact absurd (hs.builtin _ he) (hr.notBuiltin hin rfl)

theorem imp_name {n : Node} (hn : n ∈ nodes lb b) (hi : n.imp = true) :
    nodeName k (programOf pico8 k lb b) r (nodes lb b) n = n.name := by
  have hok := (nodes_ok lb b).2 n hn
  have loc : ∀ v, n.ref = .bind v ∨ n.ref = .loc v → v.name = n.name → newOf (programOf pico8 k lb b) r v = n.name := by
    intro v hv hvn
    have h1 : v ∈ allDecls lb b := (refLoc_ok hn (by rcases hv with h | h; exacts [Or.inl h, Or.inr (Or.inl h)])).1
    rw [newOf_fixed ((fixed_loc (all_loc h1)).2 ⟨rfl, h1, Or.inr (Or.inr (impLocal_iff.2 ⟨n, hn, hi, hv⟩))⟩), hvn]
  cases h : n.ref with
  | bind v =>
    simp only [NodeOk, h] at hok
    simp only [nodeName, h]
    exact loc v (Or.inl h) hok.2.1
  | loc v =>
    simp only [NodeOk, h] at hok
    simp only [nodeName, h]
    exact loc v (Or.inr h) (findIn_some hok.1).2.1
  | glob env =>
    simp only [nodeName, h]
    refine newOf_fixed ?_
    have : impGlobal (nodes lb b) n.name = true := by
      simp only [impGlobal, List.any_eq_true, Bool.and_eq_true, beq_iff_eq]
      exact ⟨n, hn, ⟨hi, by simp [h]⟩, rfl⟩
    simp [programOf, fixedName, globVar, this]
  | mem f => simp only [NodeOk, h] at hok; rw [hi] at hok; cases hok
  | label v => simp only [NodeOk, h] at hok; rw [hi] at hok; simp at hok
  | goto_ => simp only [NodeOk, h] at hok; rw [hi] at hok; simp at hok

/-- The new names keep what every node refers to. -/
theorem good (hs : Setting k lb b bg) (hr : Renames (programOf pico8 k lb b) bg bm r) {n : Node} (hn : n ∈ nodes lb b) :
    Good (newOf (programOf pico8 k lb b) r) (nodeName k (programOf pico8 k lb b) r (nodes lb b)) (allDecls lb b) n := by
  refine ⟨imp_name hn, ?_⟩
  have hok := (nodes_ok lb b).2 n hn
  cases h : n.ref with
  | bind v => simp only [nodeName, h]
  | loc v => simp only [nodeName, h]; exact good_loc hs hr hn h
  | glob env =>
    simp only [nodeName, h]
    simp only [NodeOk, h] at hok
    refine ⟨good_glob hs hr hn h, ?_⟩
    rw [ren_same (fun d hd => env_iff hs hr hd), hok.2.1]
  | mem f => trivial
  | label v => simp only [nodeName, h]
  | goto_ => trivial

/-- No global is called `_ENV`. -/
theorem glob_name {n : Node} (hn : n ∈ nodes lb b) {env : Option RVar} (h : n.ref = .glob env) : n.name ≠ envName := by
  intro hc
  have hm : occOf n ∈ LuaScope.program lb b := by rw [← C62_scopes]; exact List.mem_map_of_mem hn
  refine LuaScope.program_clean lb b _ hm (env.map (·.id)) ?_
  simp only [occOf, h, hc]
  rfl

theorem node_env (hs : Setting k lb b bg) (hr : Renames (programOf pico8 k lb b) bg bm r) {n : Node} (hn : n ∈ nodes lb b)
    (h : (∃ v, n.ref = .bind v ∨ n.ref = .loc v) ∨ ∃ e, n.ref = .glob e) :
    nodeName k (programOf pico8 k lb b) r (nodes lb b) n = envName ↔ n.name = envName := by
  have hok := (nodes_ok lb b).2 n hn
  rcases h with ⟨v, h | h⟩ | ⟨e, h⟩
  · simp only [NodeOk, h] at hok
    simp only [nodeName, h]
    rw [env_iff hs hr hok.1, hok.2.1]
  · simp only [NodeOk, h] at hok
    have hf := findIn_some hok.1
    simp only [nodeName, h]
    rw [env_iff hs hr hf.1, hf.2.1]
  · have hne := glob_name hn h
    simp only [nodeName, h, hne, iff_false]
    cases hf : (programOf pico8 k lb b).fixed (globVar n.name) with
    | some m => rw [newOf_fixed hf, ← fixed_own hf]; exact hne
    | none => exact hr.notEnv (newOf_free hf (hr.hasName ⟨_, glob_use hn h, rfl⟩)) (by simp [globVar])

end

theorem keeps_run {om : Node → Nm} : ∀ (es : List Ev) (s : State), Sound s es →
    (∀ n ∈ (run s es).2, ((∃ v, n.ref = .bind v ∨ n.ref = .loc v) ∨ ∃ e, n.ref = .glob e) → (om n = envName ↔ n.name = envName)) →
    ∀ rest, Keeps ((run s es).2.map om ++ rest) es
  | [], _, _, _, _ => trivial
  | e :: es, s, hs, h, rest => by
    have hdec : (run s (e :: es)).2 = (step s e).2 ++ (run (step s e).1 es).2 := rfl
    have ih := keeps_run es (step s e).1 hs.2 (fun n hn => h n (by rw [hdec]; exact List.mem_append_right _ hn)) rest
    have h' : ∀ n ∈ (step s e).2, ((∃ v, n.ref = .bind v ∨ n.ref = .loc v) ∨ ∃ e, n.ref = .glob e) → (om n = envName ↔ n.name = envName) :=
      fun n hn => h n (by rw [hdec]; exact List.mem_append_left _ hn)
    have hdrop : List.drop (takes [e]) ((step s e).2.map om ++ ((run (step s e).1 es).2.map om ++ rest)) = (run (step s e).1 es).2.map om ++ rest := by
      rw [← hs.1]
      exact List.drop_left' (by simp)
    rw [hdec, List.map_append, List.append_assoc]
    refine ⟨?_, by rw [hdrop]; exact ih⟩
    cases e with
    | tgt x =>
      have hl := hs.1
      simp only [step] at hl h' ⊢
      cases hp : s.pend with
      | nil => rw [hp, t_tgt] at hl; simp at hl
      | cons p q =>
        rw [hp] at h'
        have := h' _ (List.mem_singleton.2 rfl) (Or.inl ⟨_, Or.inl rfl⟩)
        simp only [List.map_cons, List.cons_append, List.headD_cons]
        simp only [beq_eq_beq, this]
    | use x =>
      have := h' (useNode s x false) (by simp [step]) (by
        unfold useNode
        cases findIn x s.cur with
        | some v => exact Or.inl ⟨v, Or.inr rfl⟩
        | none => exact Or.inr ⟨_, rfl⟩)
      have hnm : (useNode s x false).name = x := by unfold useNode; cases findIn x s.cur <;> rfl
      rw [hnm] at this
      simp only [step, List.map_cons, List.cons_append, List.headD_cons, List.map_nil]
      simp only [beq_eq_beq, this]
    | _ => trivial

section
variable {pico8 : Bool} {k : Keep} {lb : List Nm} {b : Block} {bg bm : List Nm} {r : List (RVar × Nm)}

theorem start_ren (hs : Setting k lb b bg) : renS (newOf (programOf pico8 k lb b) r) (start lb) = start lb := by
  have : (rootVars lb).map (renV (newOf (programOf pico8 k lb b) r)) = rootVars lb := by
    conv => rhs; rw [← List.map_id (rootVars lb)]
    refine List.map_congr_left fun v hv => ?_
    have := newOf_fixed (r := r) (root_fixed (pico8 := pico8) hs (List.mem_reverse.2 hv))
    simp only [renV, this, id]
  simp only [renS, start, renFs, List.map_cons, List.map_nil, renF, this]

/-- The nodes of the renamed program are the renamed nodes. -/
theorem nodes_renamed (hs : Setting k lb b bg) (hr : Renames (programOf pico8 k lb b) bg bm r) :
    nodes lb (renamed k (programOf pico8 k lb b) r lb b) =
      (nodes lb b).map (renNode (newOf (programOf pico8 k lb b) r) (nodeName k (programOf pico8 k lb b) r (nodes lb b))) := by
  have hk : Keeps ((nodes lb b).map (nodeName k (programOf pico8 k lb b) r (nodes lb b))) (evRoot b) := by
    have := keeps_run (om := nodeName k (programOf pico8 k lb b) r (nodes lb b)) (evRoot b) (start lb) (root_sound lb b)
      (fun n hn h => node_env hs hr hn h) []
    rwa [List.append_nil] at this
  have hrun := run_ren (nu := newOf (programOf pico8 k lb b) r) (om := nodeName k (programOf pico8 k lb b) r (nodes lb b)) (evRoot b)
    (start_inv lb) (root_sound lb b) (fun n hn => good hs hr hn) []
  rw [List.append_nil, start_ren hs] at hrun
  unfold renamed
  rw [nodes, evRoot_s b _ hk]
  exact congrArg Prod.snd hrun

theorem labelsOf_ren {nu : RVar → Nm} {om : Node → Nm} : ∀ ns : List Node, labelsOf (ns.map (renNode nu om)) = (labelsOf ns).map (renV nu)
  | [] => rfl
  | n :: ns => by
    have ih := labelsOf_ren (nu := nu) (om := om) ns
    unfold labelsOf at ih ⊢
    rw [List.map_cons, List.filterMap_cons, List.filterMap_cons, ih]
    cases h : n.ref <;> simp [renNode, renRef, h]

theorem findVar_map {g : RVar → RVar} (hg : ∀ v, (g v).scope = v.scope) (items : List (RVar × Nm)) (x : Nm) : ∀ l : List Nat,
    findVar (items.map fun d => (g d.1, d.2)) x l = (findVar items x l).map g
  | [] => rfl
  | s :: l => by
    have : ((items.map fun d => (g d.1, d.2)).filter fun d => d.1.scope = s && d.2 = x) =
        (items.filter fun d => d.1.scope = s && d.2 = x).map fun d => (g d.1, d.2) := by
      rw [List.filter_map]
      congr 1
      refine List.filter_congr fun d _ => ?_
      simp [hg]
    simp only [findVar, this, List.getLast?_map]
    cases (items.filter fun d => d.1.scope = s && d.2 = x).getLast? with
    | some d => rfl
    | none => exact findVar_map hg items x l

theorem goto_use {n : Node} (hn : n ∈ nodes lb b) (h : n.ref = .goto_) {v : RVar} (hv : gotoLabel (nodes lb b) n = some v) :
    (⟨n.chain.headD (final lb b).nscope, v, false⟩ : Use) ∈ (programOf pico8 k lb b).uses :=
  mem_uses.2 ⟨n, hn, by simp [usesOf, h, hv]⟩

theorem label_use {v : RVar} (h : v ∈ labelsOf (nodes lb b)) : ∃ u ∈ (programOf pico8 k lb b).uses, u.eff = v := by
  obtain ⟨n, hn, hr⟩ := mem_labelsOf.1 h
  exact ⟨⟨n.chain.headD (final lb b).nscope, v, false⟩, mem_uses.2 ⟨n, hn, by simp [usesOf, hr]⟩, rfl⟩

theorem newItems_labels (hr : Renames (programOf pico8 k lb b) bg bm r) : (programOf pico8 k lb b).newItems r (labelsOf (nodes lb b)) =
    (labelsOf (nodes lb b)).map fun v => (v, newOf (programOf pico8 k lb b) r v) := by
  unfold Program.newItems
  rw [← List.filterMap_eq_map]
  refine List.filterMap_congr fun v hv => ?_
  rw [hr.hasName (label_use hv)]
  rfl

/-- Every `goto` still has its label. -/
theorem goto_renamed (hs : Setting k lb b bg) (hr : Renames (programOf pico8 k lb b) bg bm r) {n : Node} (hn : n ∈ nodes lb b)
    (h : n.ref = .goto_) {v : RVar} (hv : gotoLabel (nodes lb b) n = some v) :
    gotoLabel ((nodes lb b).map (renNode (newOf (programOf pico8 k lb b) r) (nodeName k (programOf pico8 k lb b) r (nodes lb b))))
      (renNode (newOf (programOf pico8 k lb b) r) (nodeName k (programOf pico8 k lb b) r (nodes lb b)) n) =
      some (renV (newOf (programOf pico8 k lb b) r) v) := by
  have hP := program_ok (pico8 := pico8) hs
  have hok := (nodes_ok lb b).2 n hn
  simp only [NodeOk, h] at hok
  have hname : nodeName k (programOf pico8 k lb b) r (nodes lb b) n = newOf (programOf pico8 k lb b) r v := by simp only [nodeName, h, hv]
  have hg : findVar ((labelsOf (nodes lb b)).map fun v => (v, newOf (programOf pico8 k lb b) r v)) (newOf (programOf pico8 k lb b) r v) n.chain =
      some v := by
    have hl := label_kind (goto_mem hv).1
    rw [← newItems_labels hr]
    obtain ⟨_, _, _, _, _, _, _, _, _, ho, hs', hst, hr'⟩ := hr
    obtain ⟨m, hm, hf⟩ := C28_label hP ho hs' hst hr' (goto_use hn h hv) hl
    have hch : scopeChain (programOf pico8 k lb b).labParent (n.chain.headD (final lb b).nscope) = n.chain := chain_of hok.2.1 hok.1
    simp only [hch] at hf hm
    rw [newOf_some hm]
    exact hf
  unfold gotoLabel
  rw [labelsOf_ren, List.map_map]
  have := findVar_map (g := renV (newOf (programOf pico8 k lb b) r)) (fun _ => rfl)
    ((labelsOf (nodes lb b)).map fun v => (v, newOf (programOf pico8 k lb b) r v)) (newOf (programOf pico8 k lb b) r v) n.chain
  rw [hg, List.map_map] at this
  simp only [renNode, hname]
  exact this

end

end Verif.Resolve
