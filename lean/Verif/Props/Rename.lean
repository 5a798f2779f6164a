import Verif.RenameLemmas
import Verif.RenameScope
import Verif.Props.Ident
/-!
C27: the new names never merge variables that must stay apart, and every variable gets one.
C28: after renaming, every name is resolved to the same variable as before.
-/
namespace Verif

/-! ### Specification -/

/-- One way round: `v` and `w` cannot both have the same name, as one would hide the other somewhere, or they would be the same. -/
def Clash1 (u : Used) (v w : RVar) : Prop :=
  match v.kind, w.kind with
  | .glob, .glob => True
  | .mem, .mem => True
  | .loc, .loc => v ∈ u.locals w.scope
  | .lab, .lab => v ∈ u.labels w.scope
  | .glob, .loc => v.name ∈ u.globals w.scope
  | .mem, .loc => v.name ∈ u.members w.scope
  | _, _ => False

/-- Two variables that need different names. -/
def Clash (u : Used) (v w : RVar) : Prop := Clash1 u v w ∨ Clash1 u w v

theorem compat_iff (u : Used) (v w : RVar) : compat u v w = true ↔ ¬ Clash u v w := by
  obtain ⟨k1, n1, i1, s1⟩ := v
  obtain ⟨k2, n2, i2, s2⟩ := w
  cases k1 <;> cases k2 <;> simp [compat, Clash, Clash1, RVar.isGlobal, globCompat, Used.of]

theorem pairwise_both {α : Type} {R : α → α → Prop} {l : List α} (h : l.Pairwise R) {a b : α} (ha : a ∈ l) (hb : b ∈ l) :
    a = b ∨ R a b ∨ R b a := by
  induction h with
  | nil => simp at ha
  | cons h1 _ ih =>
    rcases List.mem_cons.1 ha with ha' | ha'
    · rcases List.mem_cons.1 hb with hb' | hb'
      · exact Or.inl (ha'.trans hb'.symm)
      · rw [ha']; exact Or.inr (Or.inl (h1 b hb'))
    · rcases List.mem_cons.1 hb with hb' | hb'
      · rw [hb']; exact Or.inr (Or.inr (h1 a ha'))
      · exact ih ha' hb'

theorem le_sum {l : List Nat} {x : Nat} (h : x ∈ l) : x ≤ l.sum := by
  induction l with
  | nil => simp at h
  | cons a l ih =>
    rcases List.mem_cons.1 h with rfl | h
    · simp
    · have := ih h; simp; omega

/-- The start of the main loop: the variables that need a name, in any order. -/
def startSt (locals globals members labels : List RVar) : RenameSt := ⟨locals, globals, members, labels, []⟩

/-- The four lists hold variables of the right kind, each once. -/
structure StartOk (ls gs ms bs : List RVar) : Prop where
  locals : ∀ v ∈ ls, v.kind = .loc
  globals : ∀ v ∈ gs, v.kind = .glob
  members : ∀ v ∈ ms, v.kind = .mem
  labels : ∀ v ∈ bs, v.kind = .lab
  nodup : (ls ++ gs ++ ms ++ bs).Nodup

theorem StartOk.kinds {ls gs ms bs : List RVar} (h : StartOk ls gs ms bs) : KindsOk (startSt ls gs ms bs) where
  names := fun v hv => by
    simp only [startSt, List.mem_append] at hv
    rcases hv with (hv | hv) | hv
    · rw [h.locals v hv]; simp
    · rw [h.globals v hv]; simp
    · rw [h.members v hv]; simp
  labels := h.labels

section
variable {c : RenameCfg} {focus : Focus} {order : List Nat} {ls gs ms bs : List RVar} {fuel : Nat} {r : List (RVar × List Nat)}

theorem ident_inj (ho : order.Nodup) (a b : Nat) (h : ident (identChars focus order) a = ident (identChars focus order) b) : a = b :=
  C26_distinct focus order ho a b h

theorem names_ok (ho : order.Nodup) (hs : StartOk ls gs ms bs)
    (hr : renameLoop c (ident (identChars focus order)) fuel 0 (startSt ls gs ms bs) = some r) :
    List.Perm (ls ++ gs ++ ms ++ bs) (r.map (·.1)) ∧ ∃ m, NamesOk c (ident (identChars focus order)) m r := by
  have := renameLoop_ok c _ (ident_inj ho) fuel 0 _ r hs.kinds ⟨by simp [startSt], by simp [startSt], by simp [startSt],
    by simp [startSt], by simp [startSt], by simp [startSt]⟩ hr
  simpa [RenameSt.all, startSt] using this

/-! ### C27 -/

/-- Two different variables given the same name do not clash. -/
theorem C27_no_clash (ho : order.Nodup) (hs : StartOk ls gs ms bs)
    (hr : renameLoop c (ident (identChars focus order)) fuel 0 (startSt ls gs ms bs) = some r) {v w : RVar} {i : List Nat}
    (hv : (v, i) ∈ r) (hw : (w, i) ∈ r) (hne : v ≠ w) : ¬ Clash c.used v w := by
  obtain ⟨_, m, hn⟩ := names_ok ho hs hr
  rw [← compat_iff]
  by_cases hk : v.kind = .lab ↔ w.kind = .lab
  · rcases pairwise_both hn.pair hv hw with hp | hp | hp
    · exact absurd (congrArg Prod.fst hp) hne
    · rw [compat_comm]; exact hp rfl hk
    · exact hp rfl hk.symm
  · -- a label and another variable
    obtain ⟨k1, n1, i1, s1⟩ := v
    obtain ⟨k2, n2, i2, s2⟩ := w
    cases k1 <;> cases k2 <;> simp_all [compat, RVar.isGlobal, globCompat]

/-- No two globals share a name, and no two members. -/
theorem C27_globals_distinct (ho : order.Nodup) (hs : StartOk ls gs ms bs)
    (hr : renameLoop c (ident (identChars focus order)) fuel 0 (startSt ls gs ms bs) = some r) {v w : RVar} {i : List Nat}
    (hv : (v, i) ∈ r) (hw : (w, i) ∈ r) (hk : v.kind = w.kind) (hg : v.kind = .glob ∨ v.kind = .mem) : v = w := by
  by_contra hne
  refine C27_no_clash ho hs hr hv hw hne ?_
  left
  rcases hg with hg | hg <;> simp [Clash1, ← hk, hg]

/-- Names that are taken are left alone: a preserved (or built-in) global name goes to no other global and to no local in whose scope the
global is used; likewise preserved members, locals and labels.  Nothing but a label is ever called `_ENV`. -/
theorem C27_preserved (ho : order.Nodup) (hs : StartOk ls gs ms bs)
    (hr : renameLoop c (ident (identChars focus order)) fuel 0 (startSt ls gs ms bs) = some r) {v : RVar} {i : List Nat} (hv : (v, i) ∈ r) :
    (v.kind ≠ .lab → i ≠ envName ∧ (i ∈ c.globalExcl → ¬ Clash c.used v (globVar i)) ∧ (i ∈ c.memberExcl → ¬ Clash c.used v (memVar i)) ∧
      ∀ w, (i, w) ∈ c.localExcl → ¬ Clash c.used v w) ∧
    (v.kind = .lab → ∀ w, (i, w) ∈ c.labelExcl → ¬ Clash c.used v w) := by
  obtain ⟨_, m, hn⟩ := names_ok ho hs hr
  refine ⟨fun hk => ⟨hn.env _ hv hk, ?_, ?_, ?_⟩, fun hk w hw => ?_⟩
  · intro hi
    rw [← compat_iff]
    exact hn.excl _ hv hk _ (by simp [excludedFor, hi])
  · intro hi
    rw [← compat_iff]
    exact hn.excl _ hv hk _ (by simp [excludedFor, hi])
  · intro w hw
    rw [← compat_iff]
    refine hn.excl _ hv hk _ ?_
    simp only [excludedFor, List.mem_append, List.mem_map, List.mem_filter, beq_iff_eq]
    exact Or.inr ⟨(i, w), ⟨hw, rfl⟩, rfl⟩
  · rw [← compat_iff]
    exact hn.exclLab _ hv hk _ hw rfl

/-- Every variable gets exactly one name, and it is a generated identifier. -/
theorem C27_each_once (ho : order.Nodup) (hs : StartOk ls gs ms bs)
    (hr : renameLoop c (ident (identChars focus order)) fuel 0 (startSt ls gs ms bs) = some r) :
    (∀ v ∈ ls ++ gs ++ ms ++ bs, ∃ i, (v, i) ∈ r) ∧ (r.map (·.1)).Nodup ∧
      ∀ p ∈ r, p.1 ∈ ls ++ gs ++ ms ++ bs ∧ ∃ k, ident (identChars focus order) k = some p.2 := by
  obtain ⟨hp, m, hn⟩ := names_ok ho hs hr
  refine ⟨fun v hv => ?_, hp.nodup_iff.1 hs.nodup, fun p hpr => ⟨hp.mem_iff.2 (List.mem_map_of_mem hpr), ?_⟩⟩
  · obtain ⟨p, h1, h2⟩ := List.mem_map.1 (hp.mem_iff.1 hv)
    exact ⟨p.2, by rw [← h2]; exact h1⟩
  · obtain ⟨k, _, hk⟩ := hn.ident p hpr
    exact ⟨k, hk⟩

/-- In PICO-8, variables written right after a `0` get no name starting with b or x. -/
theorem C27_after_zero (ho : order.Nodup) (hs : StartOk ls gs ms bs) (h8 : c.pico8 = true)
    (hr : renameLoop c (ident (identChars focus order)) fuel 0 (startSt ls gs ms bs) = some r) {v : RVar} {i : List Nat} (hv : (v, i) ∈ r)
    (hk : v.kind ≠ .lab) (hz : v ∈ c.afterZero) : ∀ ch, i.head? = some ch → ch ∉ [98, 120, 66, 88] := by
  obtain ⟨_, m, hn⟩ := names_ok ho hs hr
  have := hn.avoid _ hv hk
  intro ch hch hmem
  cases i with
  | nil => simp at hch
  | cons a i =>
    simp at hch
    subst hch
    refine this ?_
    simp only [avoidFor, h8, Bool.true_and, List.contains_eq_mem, hmem, decide_true, if_true]
    exact hz

/-- There are identifiers in nobody's way from any point on. -/
theorem free_idents (c : RenameCfg) (focus : Focus) (ho : order.Nodup) (n : Nat) :
    ∃ m ≥ n, ∃ i, ident (identChars focus order) m = some i ∧ FreeIdent c i := by
  -- a string of letters a longer than anything excluded
  let names := c.globalExcl ++ c.memberExcl ++ c.localExcl.map (·.1) ++ c.labelExcl.map (·.1)
  obtain ⟨t, ht, _⟩ := C26_valid focus order ho true (Or.inl rfl) n
  let L := t.length + (names.map List.length).sum + 10
  have hlong : ∀ x ∈ names, x.length < L := by
    intro x hx
    have := le_sum (l := names.map List.length) (x := x.length) (List.mem_map_of_mem hx)
    omega
  have hkw : List.replicate L 97 ∉ keywords := by
    intro h
    have : ∀ k ∈ keywords, k.length < 10 := by decide +kernel
    have := this _ h
    simp at this
    omega
  obtain ⟨m, hm⟩ := C26_complete focus order ho (List.replicate L 97) (by simp [L])
    (fun x hx => by rw [List.eq_of_mem_replicate hx]; exact (identifierChars_ok focus).2)
    (fun x hx => by
      have := List.mem_of_mem_head? hx
      rw [List.eq_of_mem_replicate this]; decide) hkw
  have hnot : List.replicate L 97 ∉ names := fun h => by have := hlong _ h; simp at this
  refine ⟨m, ?_, _, hm, ?_⟩
  · by_contra hlt
    have := C26_short_first focus order ho m n (by omega) _ _ hm ht
    simp at this
    omega
  · simp only [names, List.mem_append, not_or, List.mem_map, not_exists, not_and] at hnot
    obtain ⟨k, hk⟩ : ∃ k, L = k + 1 := ⟨L - 1, by omega⟩
    refine ⟨?_, ?_, ?_, ?_⟩
    · intro h
      have := congrArg List.length h
      simp [envName] at this
      omega
    · unfold excludedFor
      rw [if_neg (by simpa using hnot.1.1.1), if_neg (by simpa using hnot.1.1.2), List.filter_eq_nil_iff.2]
      · rfl
      · intro e he; simpa using hnot.1.2 e he
    · intro e he; exact hnot.2 e he
    · rw [hk, List.replicate_succ]
      simp [avoidFor]

/-- Renaming always ends. -/
theorem C27_ends (c : RenameCfg) (focus : Focus) (ho : order.Nodup) (st : RenameSt) :
    ∃ fuel r, renameLoop c (ident (identChars focus order)) fuel 0 st = some r :=
  renameLoop_ends (fun n => by obtain ⟨s, hs, _⟩ := C26_valid focus order ho true (Or.inl rfl) n; exact ⟨s, hs⟩)
    (free_idents c focus ho) _ 0 st (Nat.le_refl _)

end

/-! ### C28 -/

theorem upTo_split {t : Nat} : ∀ {l : List Nat}, t ∈ l → ∃ a b, l = a ++ t :: b ∧ t ∉ a ∧ upTo t l = a ++ [t]
  | [], h => by simp at h
  | s :: ss, h => by
    by_cases hs : s = t
    · exact ⟨[], ss, by simp [hs], by simp, by simp [upTo, hs]⟩
    · obtain ⟨a, b, h1, h2, h3⟩ := upTo_split ((List.mem_cons.1 h).resolve_left (fun h => hs h.symm))
      exact ⟨s :: a, b, by simp [h1], by simpa [h2] using fun h => hs h.symm, by simp [upTo, hs, h3]⟩

/-- A variable is found if nothing else of its name is in the way. -/
theorem findVar_some {items : List (RVar × List Nat)} {name : List Nat} {v : RVar} (hv : (v, name) ∈ items) : ∀ (a b : List Nat),
    v.scope ∉ a → (∀ d ∈ items, d.2 = name → d.1.scope ∈ a ++ [v.scope] → d.1 = v) → findVar items name (a ++ v.scope :: b) = some v
  | [], b, _, hd => by
    simp only [List.nil_append, findVar]
    cases hl : (items.filter fun d => d.1.scope = v.scope && d.2 = name).getLast? with
    | none =>
      rw [List.getLast?_eq_none_iff, List.filter_eq_nil_iff] at hl
      exact absurd (hl _ hv) (by simp)
    | some d =>
      have hmem := List.mem_of_getLast? hl
      simp only [List.mem_filter, Bool.and_eq_true, decide_eq_true_eq] at hmem
      simp only [Option.some.injEq]
      exact hd d hmem.1 hmem.2.2 (by simp [hmem.2.1])
  | s :: a, b, hs, hd => by
    simp only [List.cons_append, findVar]
    rw [show (items.filter fun d => d.1.scope = s && d.2 = name) = [] by
      rw [List.filter_eq_nil_iff]
      intro d hdm hc
      simp only [Bool.and_eq_true, decide_eq_true_eq] at hc
      have := hd d hdm hc.2 (by simp [hc.1])
      subst this
      exact hs (by simp [hc.1])]
    exact findVar_some hv a b (fun h => hs (by simp [h])) (fun d h1 h2 h3 => hd d h1 h2 (by simp at h3 ⊢; tauto))

theorem findVar_none {items : List (RVar × List Nat)} {name : List Nat} : ∀ (l : List Nat),
    (∀ d ∈ items, d.2 = name → d.1.scope ∉ l) → findVar items name l = none
  | [], _ => rfl
  | s :: ss, h => by
    simp only [findVar]
    rw [show (items.filter fun d => d.1.scope = s && d.2 = name) = [] by
      rw [List.filter_eq_nil_iff]
      intro d hdm hc
      simp only [Bool.and_eq_true, decide_eq_true_eq] at hc
      exact h d hdm hc.2 (by simp [hc.1])]
    exact findVar_none ss (fun d h1 h2 h3 => h d h1 h2 (by simp [h3]))

/-- What the parser and the preceding steps guarantee.
* every local (label) node lies inside the scope of its variable, which is among the declared ones;
* every declared variable has a node: at least its declaration, in its own scope;
* preserved and hinted variables of the same final name do not clash (the program resolved them before; for hints this is checked, 446-449),
  and preserved globals are not hidden by preserved locals;
* a global treated as a member because of a hint is not preserved as a member: see C28_member_counterexample. -/
structure Program.Ok (P : Program) : Prop where
  useLocal : ∀ u ∈ P.uses, u.var.kind = .loc → u.var ∈ P.decls ∧ u.var.scope ∈ scopeChain P.parent u.scope ∧ u.asMember = false
  useLabel : ∀ u ∈ P.uses, u.var.kind = .lab → u.var ∈ P.labels ∧ u.var.scope ∈ scopeChain P.labParent u.scope ∧ u.asMember = false
  declUse : ∀ v ∈ P.decls, v.kind = .loc ∧ ∃ u ∈ P.uses, u.var = v
  labelUse : ∀ v ∈ P.labels, v.kind = .lab ∧ ∃ u ∈ P.uses, u.var = v ∧ u.scope = v.scope
  useGlobal : ∀ u ∈ P.uses, u.var.kind = .glob → u.var = globVar u.var.name
  useMember : ∀ u ∈ P.uses, u.asMember = true → u.var.kind = .glob ∧ P.fixed u.eff = none
  fixedOk : ∀ v w n, P.fixed v = some n → P.fixed w = some n → v ≠ w → v.kind = w.kind → v.kind = .loc ∨ v.kind = .lab → ¬ Clash P.used v w
  fixedGlobal : ∀ u ∈ P.uses, u.var.kind = .glob → ∀ w ∈ P.decls, ∀ n, P.fixed u.eff = some n → P.fixed w = some n →
    w.scope ∉ scopeChain P.parent u.scope

/-- The variables to be renamed are those with a node that are not fixed. -/
def Program.Starts (P : Program) (vs : List RVar) : Prop := ∀ v, v ∈ vs ↔ P.fixed v = none ∧ ∃ u ∈ P.uses, u.eff = v

/-- The names written for the declared variables. -/
def Program.newItems (P : Program) (r : List (RVar × List Nat)) (vs : List RVar) : List (RVar × List Nat) :=
  vs.filterMap fun v => (P.newName r v).map fun n => (v, n)

section
variable {P : Program} {focusChars : Bool} {bg bm : List (List Nat)} {az : List RVar} {focus : Focus} {order : List Nat}
  {ls gs ms bs : List RVar} {fuel : Nat} {r : List (RVar × List Nat)}

theorem mem_newItems {vs : List RVar} {d : RVar × List Nat} : d ∈ P.newItems r vs ↔ d.1 ∈ vs ∧ P.newName r d.1 = some d.2 := by
  unfold Program.newItems
  simp only [List.mem_filterMap, Option.map_eq_some_iff]
  constructor
  · rintro ⟨v, hv, n, hn, rfl⟩; exact ⟨hv, hn⟩
  · rintro ⟨hv, hn⟩; exact ⟨d.1, hv, d.2, hn, rfl⟩

theorem rename_lookup_mem {v : RVar} {i : List Nat} (h : r.lookup v = some i) : (v, i) ∈ r := by
  induction r with
  | nil => simp at h
  | cons p r ih =>
    obtain ⟨a, b⟩ := p
    by_cases hv : v = a
    · subst hv; simp [List.lookup] at h; simp [h]
    · have hb : (v == a) = false := by simpa using hv
      simp [List.lookup, hb] at h
      exact List.mem_cons_of_mem _ (ih h)

theorem mem_lookup {v : RVar} {i : List Nat} (h : (v, i) ∈ r) (hn : (r.map (·.1)).Nodup) : r.lookup v = some i := by
  induction r with
  | nil => simp at h
  | cons p r ih =>
    obtain ⟨a, b⟩ := p
    simp only [List.map_cons, List.nodup_cons] at hn
    rcases List.mem_cons.1 h with h | h'
    · cases h; simp [List.lookup]
    · have hv : v ≠ a := by
        rintro rfl
        exact hn.1 (List.mem_map.2 ⟨_, h', rfl⟩)
      have hb : (v == a) = false := by simpa using hv
      simp [List.lookup, hb]
      exact ih h' hn.2

/-- Two names that come out the same belong to variables that do not clash. -/
theorem same_name_ok (hP : P.Ok) (ho : order.Nodup) (hs : StartOk ls gs ms bs) 
    (hr : renameLoop (P.cfg focusChars bg bm az) (ident (identChars focus order)) fuel 0 (startSt ls gs ms bs) = some r) {v w : RVar} {n : List Nat}
    (hk : v.kind = w.kind) (hl : v.kind = .loc ∨ v.kind = .lab) (hvu : ∃ u ∈ P.uses, u.var = v) (hwu : ∃ u ∈ P.uses, u.var = w)
    (hv : P.newName r v = some n) (hw : P.newName r w = some n) (hne : v ≠ w) : ¬ Clash P.used v w := by
  have eff_eq : ∀ u ∈ P.uses, (u.var.kind = .loc ∨ u.var.kind = .lab) → u.eff = u.var := by
    intro u hu h
    rcases h with h | h
    · simp [Use.eff, (hP.useLocal u hu h).2.2]
    · simp [Use.eff, (hP.useLabel u hu h).2.2]
  have excl : ∀ {a b : RVar}, a.kind = b.kind → (b.kind = .loc ∨ b.kind = .lab) → (∃ u ∈ P.uses, u.var = b) → P.fixed b = some n →
      (a, n) ∈ r → ¬ Clash P.used a b := by
    intro a b hab hbk ⟨u, hu, hub⟩ hfb har
    have he := eff_eq u hu (by rw [hub]; exact hbk)
    have hp := C27_preserved ho hs hr har
    have hname : P.useName u = n := by simp [Program.useName, he, hub, hfb]
    rcases hbk with hbk | hbk
    · refine (hp.1 (by rw [hab, hbk]; simp)).2.2.2 b ?_
      simp only [Program.cfg, List.mem_map, List.mem_filter, Bool.and_eq_true, decide_eq_true_eq]
      exact ⟨u, ⟨hu, by rw [he, hub, hbk], by rw [he, hub, hfb]; rfl⟩, by rw [hname, hub]⟩
    · refine hp.2 (by rw [hab, hbk]) b ?_
      simp only [Program.cfg, List.mem_map, List.mem_filter, Bool.and_eq_true, decide_eq_true_eq]
      exact ⟨u, ⟨hu, by rw [he, hub, hbk], by rw [he, hub, hfb]; rfl⟩, by rw [hname, hub]⟩
  unfold Program.newName at hv hw
  cases hfv : P.fixed v with
  | some a =>
    rw [hfv] at hv; cases hv
    cases hfw : P.fixed w with
    | some b => rw [hfw] at hw; cases hw; exact hP.fixedOk v w n hfv hfw hne hk hl
    | none =>
      rw [hfw] at hw
      have := excl hk.symm hl hvu hfv (rename_lookup_mem hw)
      exact fun h => this (Or.symm h)
  | none =>
    rw [hfv] at hv
    cases hfw : P.fixed w with
    | some b => rw [hfw] at hw; cases hw; exact excl hk (by rw [← hk]; exact hl) hwu hfw (rename_lookup_mem hv)
    | none => rw [hfw] at hw; exact C27_no_clash ho hs hr (rename_lookup_mem hv) (rename_lookup_mem hw) hne

/-- Every variable with a node has a new name. -/
theorem has_name (ho : order.Nodup) (hs : StartOk ls gs ms bs) (hst : P.Starts (ls ++ gs ++ ms ++ bs))
    (hr : renameLoop (P.cfg focusChars bg bm az) (ident (identChars focus order)) fuel 0 (startSt ls gs ms bs) = some r) {v : RVar}
    (hv : ∃ u ∈ P.uses, u.eff = v) : ∃ n, P.newName r v = some n := by
  unfold Program.newName
  cases hf : P.fixed v with
  | some n => exact ⟨n, rfl⟩
  | none =>
    have h := C27_each_once ho hs hr
    obtain ⟨i, hi⟩ := h.1 v ((hst v).2 ⟨hf, hv⟩)
    exact ⟨i, mem_lookup hi h.2.1⟩

/-- Every use of a local resolves to that local after renaming. -/
theorem C28_local (hP : P.Ok) (ho : order.Nodup) (hs : StartOk ls gs ms bs) (hst : P.Starts (ls ++ gs ++ ms ++ bs))
    (hr : renameLoop (P.cfg focusChars bg bm az) (ident (identChars focus order)) fuel 0 (startSt ls gs ms bs) = some r)
    {u : Use} (hu : u ∈ P.uses) (hk : u.var.kind = .loc) :
    ∃ n, P.newName r u.var = some n ∧ findVar (P.newItems r P.decls) n (scopeChain P.parent u.scope) = some u.var := by
  have h1 := hP.useLocal u hu hk
  have heff : u.eff = u.var := by simp [Use.eff, h1.2.2]
  obtain ⟨n, hn⟩ := has_name ho hs hst hr (v := u.var) ⟨u, hu, heff⟩
  refine ⟨n, hn, ?_⟩
  obtain ⟨a, b, hab, hnot, hup⟩ := upTo_split h1.2.1
  rw [hab]
  refine findVar_some (mem_newItems.2 ⟨h1.1, hn⟩) a b hnot ?_
  intro d hd hdn hsc
  rw [mem_newItems] at hd
  by_contra hne
  have hdk := hP.declUse d.1 hd.1
  refine same_name_ok hP ho hs hr (v := u.var) (w := d.1) (n := n) (by rw [hk, hdk.1]) (Or.inl hk) ⟨u, hu, rfl⟩ hdk.2 hn
    (by rw [hd.2, hdn]) (fun h => hne h.symm) ?_
  left
  simp only [Clash1, hk, hdk.1, Program.used, List.mem_map, List.mem_filter, Bool.and_eq_true, decide_eq_true_eq, List.contains_eq_mem]
  exact ⟨u, ⟨hu, hk, by rw [hup]; exact hsc⟩, rfl⟩

/-- Every `goto` (and label) resolves to its label after renaming. -/
theorem C28_label (hP : P.Ok) (ho : order.Nodup) (hs : StartOk ls gs ms bs) (hst : P.Starts (ls ++ gs ++ ms ++ bs))
    (hr : renameLoop (P.cfg focusChars bg bm az) (ident (identChars focus order)) fuel 0 (startSt ls gs ms bs) = some r)
    {u : Use} (hu : u ∈ P.uses) (hk : u.var.kind = .lab) :
    ∃ n, P.newName r u.var = some n ∧ findVar (P.newItems r P.labels) n (scopeChain P.labParent u.scope) = some u.var := by
  have h1 := hP.useLabel u hu hk
  have heff : u.eff = u.var := by simp [Use.eff, h1.2.2]
  obtain ⟨n, hn⟩ := has_name ho hs hst hr (v := u.var) ⟨u, hu, heff⟩
  refine ⟨n, hn, ?_⟩
  obtain ⟨a, b, hab, hnot, hup⟩ := upTo_split h1.2.1
  rw [hab]
  refine findVar_some (mem_newItems.2 ⟨h1.1, hn⟩) a b hnot ?_
  intro d hd hdn hsc
  rw [mem_newItems] at hd
  by_contra hne
  have hdk := hP.labelUse d.1 hd.1
  obtain ⟨u', hu', hv', _⟩ := hdk.2
  refine same_name_ok hP ho hs hr (v := u.var) (w := d.1) (n := n) (by rw [hk, hdk.1]) (Or.inr hk) ⟨u, hu, rfl⟩ ⟨u', hu', hv'⟩ hn
    (by rw [hd.2, hdn]) (fun h => hne h.symm) ?_
  left
  simp only [Clash1, hk, hdk.1, Program.used, List.mem_map, List.mem_filter, Bool.and_eq_true, decide_eq_true_eq, List.contains_eq_mem]
  refine ⟨u, ⟨hu, hk, ?_⟩, rfl⟩
  split
  · rw [hup]; exact hsc
  · rw [hab]; simp at hsc ⊢; tauto

/-- Picotron (Lua 5.4) forbids a label of the same name as one of an enclosing block: there is none after renaming, for labels not
already preserved. -/
theorem C28_label_unique (hP : P.Ok) (ho : order.Nodup) (hs : StartOk ls gs ms bs) (h8 : P.pico8 = false)
    (hr : renameLoop (P.cfg focusChars bg bm az) (ident (identChars focus order)) fuel 0 (startSt ls gs ms bs) = some r)
    {v w : RVar} (hv : v ∈ P.labels) (hw : w ∈ P.labels) (hne : v ≠ w) (hin : w.scope ∈ scopeChain P.labParent v.scope)
    (n : List Nat) (hvn : P.newName r v = some n) : P.newName r w ≠ some n := by
  intro hwn
  have hvk := hP.labelUse v hv
  have hwk := hP.labelUse w hw
  obtain ⟨u, hu, huv, hus⟩ := hvk.2
  obtain ⟨u', hu', huv', _⟩ := hwk.2
  refine same_name_ok hP ho hs hr (by rw [hvk.1, hwk.1]) (Or.inr hvk.1) ⟨u, hu, huv⟩ ⟨u', hu', huv'⟩ hvn hwn hne ?_
  left
  simp only [Clash1, hvk.1, hwk.1, Program.used, h8, List.mem_map, List.mem_filter, Bool.and_eq_true, decide_eq_true_eq,
    List.contains_eq_mem, Bool.false_eq_true, if_false]
  exact ⟨u, ⟨hu, by rw [huv, hvk.1], by rw [hus]; exact hin⟩, huv⟩

/-- Every use of a global (also one that counts as a member of `_ENV`) is still a use of a global after renaming: no local hides it. -/
theorem C28_global (hP : P.Ok) (ho : order.Nodup) (hs : StartOk ls gs ms bs) (hst : P.Starts (ls ++ gs ++ ms ++ bs))
    (hr : renameLoop (P.cfg focusChars bg bm az) (ident (identChars focus order)) fuel 0 (startSt ls gs ms bs) = some r)
    {u : Use} (hu : u ∈ P.uses) (hk : u.var.kind = .glob) :
    ∃ n, P.newName r u.eff = some n ∧ findVar (P.newItems r P.decls) n (scopeChain P.parent u.scope) = none := by
  obtain ⟨n, hn⟩ := has_name ho hs hst hr (v := u.eff) ⟨u, hu, rfl⟩
  refine ⟨n, hn, findVar_none _ ?_⟩
  intro d hd hdn hsc
  rw [mem_newItems] at hd
  have hdk := hP.declUse d.1 hd.1
  obtain ⟨u', hu', hv'⟩ := hdk.2
  have hdname : P.newName r d.1 = some n := by rw [hd.2, hdn]
  have hnotenv : ∀ {v : RVar}, (v, n) ∈ r → True := fun _ => trivial
  -- the clash
  have clash : Clash P.used u.eff d.1 ∨ (P.fixed u.eff).isSome := by
    cases hf : P.fixed u.eff with
    | some _ => right; rfl
    | none =>
      left; left
      have hnm : P.useName u = u.eff.name := by simp [Program.useName, hf]
      cases hm : u.asMember with
      | false =>
        have he : u.eff = u.var := by simp [Use.eff, hm]
        simp only [Clash1, he, hk, hdk.1, Program.used, List.mem_map, List.mem_filter, Bool.and_eq_true, decide_eq_true_eq,
          List.contains_eq_mem]
        exact ⟨u, ⟨hu, ⟨hk, by simp [hm]⟩, hsc⟩, by rw [hnm, he]⟩
      | true =>
        have he : u.eff.kind = .mem := by simp [Use.eff, hm, memVar]
        simp only [Clash1, he, hdk.1, Program.used, List.mem_map, List.mem_filter, Bool.and_eq_true, decide_eq_true_eq,
          List.contains_eq_mem]
        exact ⟨u, ⟨hu, ⟨hk, by simp [hm], by simp [hf]⟩, hsc⟩, hnm⟩
  have hd_eff : u'.eff = d.1 := by
    have := (hP.useLocal u' hu' (by rw [hv']; exact hdk.1)).2.2
    simp [Use.eff, this, hv']
  cases hfu : P.fixed u.eff with
  | none =>
    have hcl := clash.resolve_right (by simp [hfu])
    have hur : (u.eff, n) ∈ r := by
      unfold Program.newName at hn; rw [hfu] at hn; exact rename_lookup_mem hn
    cases hfd : P.fixed d.1 with
    | none =>
      have hdr : (d.1, n) ∈ r := by
        unfold Program.newName at hdname; rw [hfd] at hdname; exact rename_lookup_mem hdname
      refine C27_no_clash ho hs hr hur hdr ?_ hcl
      intro he
      have : u.eff.kind = .loc := by rw [he]; exact hdk.1
      cases hm : u.asMember <;> simp [Use.eff, hm, memVar, hk] at this
    | some n' =>
      have hn' : n' = n := by unfold Program.newName at hdname; rw [hfd] at hdname; simpa using hdname
      subst hn'
      have huk : u.eff.kind ≠ .lab := by cases hm : u.asMember <;> simp [Use.eff, hm, memVar, hk]
      refine ((C27_preserved ho hs hr hur).1 huk).2.2.2 d.1 ?_ hcl
      simp only [Program.cfg, List.mem_map, List.mem_filter, Bool.and_eq_true, decide_eq_true_eq]
      refine ⟨u', ⟨hu', by rw [hd_eff]; exact hdk.1, by rw [hd_eff, hfd]; rfl⟩, ?_⟩
      simp [Program.useName, hd_eff, hfd, hv']
  | some n' =>
    have hn' : n' = n := by unfold Program.newName at hn; rw [hfu] at hn; simpa using hn
    subst hn'
    have hm : u.asMember = false := by
      cases hm : u.asMember with
      | false => rfl
      | true => have := (hP.useMember u hu hm).2; rw [this] at hfu; cases hfu
    have he : u.eff = u.var := by simp [Use.eff, hm]
    have hnm : P.useName u = n' := by simp [Program.useName, hfu]
    cases hfd : P.fixed d.1 with
    | some n'' =>
      have : n'' = n' := by unfold Program.newName at hdname; rw [hfd] at hdname; simpa using hdname
      subst this
      exact hP.fixedGlobal u hu hk d.1 hd.1 _ hfu hfd hsc
    | none =>
      have hdr : (d.1, n') ∈ r := by
        unfold Program.newName at hdname; rw [hfd] at hdname; exact rename_lookup_mem hdname
      have hin : n' ∈ (P.cfg focusChars bg bm az).globalExcl := by
        simp only [Program.cfg, List.mem_append, List.mem_map, List.mem_filter, Bool.and_eq_true, decide_eq_true_eq]
        exact Or.inr ⟨u, ⟨hu, by rw [he]; exact hk, by rw [hfu]; rfl⟩, hnm⟩
      refine ((C27_preserved ho hs hr hdr).1 (by rw [hdk.1]; simp)).2.1 hin ?_
      right
      simp only [Clash1, globVar, hdk.1, Program.cfg, Program.used, List.mem_map, List.mem_filter, Bool.and_eq_true, decide_eq_true_eq,
        List.contains_eq_mem]
      exact ⟨u, ⟨hu, ⟨hk, by simp [hm]⟩, hsc⟩, hnm⟩

/-- Different globals keep different names, preserved or not. -/
theorem C28_globals_distinct (ho : order.Nodup) (hs : StartOk ls gs ms bs)
    (hr : renameLoop (P.cfg focusChars bg bm az) (ident (identChars focus order)) fuel 0 (startSt ls gs ms bs) = some r)
    {u u' : Use} (hu : u ∈ P.uses) (hu' : u' ∈ P.uses) (hk : u.eff.kind = .glob) (hk' : u'.eff.kind = .glob) {n : List Nat}
    (hn : P.newName r u.eff = some n) (hn' : P.newName r u'.eff = some n) (hfix : P.fixed u.eff = none ∨ P.fixed u'.eff = none) :
    u.eff = u'.eff := by
  have excl : ∀ {a b : Use}, a ∈ P.uses → b ∈ P.uses → a.eff.kind = .glob → b.eff.kind = .glob → P.fixed a.eff = none →
      P.fixed b.eff = some n → P.newName r a.eff = some n → False := by
    intro a b ha hb hka hkb hfa hfb hna
    have har : (a.eff, n) ∈ r := by unfold Program.newName at hna; rw [hfa] at hna; exact rename_lookup_mem hna
    refine ((C27_preserved ho hs hr har).1 (by rw [hka]; simp)).2.1 ?_ ?_
    · simp only [Program.cfg, List.mem_append, List.mem_map, List.mem_filter, Bool.and_eq_true, decide_eq_true_eq]
      exact Or.inr ⟨b, ⟨hb, hkb, by rw [hfb]; rfl⟩, by simp [Program.useName, hfb]⟩
    · left; simp [Clash1, hka, globVar]
  cases hf : P.fixed u.eff with
  | none =>
    cases hf' : P.fixed u'.eff with
    | none =>
      refine C27_globals_distinct ho hs hr (i := n) ?_ ?_ (by rw [hk, hk']) (Or.inl hk)
      · unfold Program.newName at hn; rw [hf] at hn; exact rename_lookup_mem hn
      · unfold Program.newName at hn'; rw [hf'] at hn'; exact rename_lookup_mem hn'
    | some m =>
      have : m = n := by unfold Program.newName at hn'; rw [hf'] at hn'; simpa using hn'
      subst this
      exact (excl hu hu' hk hk' hf hf' hn).elim
  | some m =>
    have hf' := hfix.resolve_left (by simp [hf])
    have : m = n := by unfold Program.newName at hn; rw [hf] at hn; simpa using hn
    subst this
    exact (excl hu' hu hk' hk hf' hf hn').elim
end

/-! ### Examples -/

/-- `local x = …; function(y) … x … y … g … end`, and a second function with a parameter of its own. -/
def demoP : Program where
  pico8 := true
  parent := fun s => if s = 0 then none else if s = 1 then some 0 else some 1
  labParent := fun _ => none
  decls := [⟨.loc, [120], 1, 1⟩, ⟨.loc, [121], 2, 2⟩, ⟨.loc, [122], 3, 3⟩]
  labels := []
  uses := [⟨1, ⟨.loc, [120], 1, 1⟩, false⟩, ⟨2, ⟨.loc, [121], 2, 2⟩, false⟩, ⟨2, ⟨.loc, [120], 1, 1⟩, false⟩, ⟨2, globVar [103], false⟩,
    ⟨3, ⟨.loc, [122], 3, 3⟩, false⟩, ⟨3, globVar [112], false⟩]
  fixed := fun v => if v = globVar [112] then some [112] else none

/-- The two parameters share the name `a`, `x` gets another one, the preserved global keeps its name. -/
example : renameLoop (demoP.cfg false [] [] []) (ident (identChars .compressed [])) 5 0
      (startSt [⟨.loc, [121], 2, 2⟩, ⟨.loc, [120], 1, 1⟩, ⟨.loc, [122], 3, 3⟩] [globVar [103]] [] []) =
    some [(⟨.loc, [121], 2, 2⟩, [97]), (⟨.loc, [122], 3, 3⟩, [97]), (⟨.loc, [120], 1, 1⟩, [98]), (globVar [103], [99])] := by
  decide +kernel

theorem demoP_chain2 : scopeChain demoP.parent 2 = [2, 1, 0] ∧ scopeChain demoP.parent 1 = [1, 0] ∧ scopeChain demoP.parent 3 = [3, 1, 0] := by
  have h0 : scopeChain demoP.parent 0 = [0] := by unfold scopeChain; rfl
  have h1 : scopeChain demoP.parent 1 = [1, 0] := by
    conv => lhs; unfold scopeChain
    simp [demoP]
    exact h0
  refine ⟨?_, h1, ?_⟩
  · conv => lhs; unfold scopeChain
    simp [demoP]
    exact h1
  · conv => lhs; unfold scopeChain
    simp [demoP]
    exact h1

/-- The program meets the hypotheses of the theorems. -/
example : demoP.Ok ∧ StartOk [⟨.loc, [121], 2, 2⟩, ⟨.loc, [120], 1, 1⟩, ⟨.loc, [122], 3, 3⟩] [globVar [103]] [] [] := by
  obtain ⟨h2, h1, h3⟩ := demoP_chain2
  refine ⟨⟨?_, ?_, ?_, ?_, ?_, ?_, ?_, ?_⟩, ⟨by decide, by decide, by decide, by decide, by decide⟩⟩
  · intro u hu hk
    simp only [demoP, List.mem_cons, List.not_mem_nil, or_false] at hu
    rcases hu with rfl | rfl | rfl | rfl | rfl | rfl <;> simp_all [demoP, globVar]
  · intro u hu hk
    simp only [demoP, List.mem_cons, List.not_mem_nil, or_false] at hu
    rcases hu with rfl | rfl | rfl | rfl | rfl | rfl <;> simp_all [globVar]
  · intro v hv
    simp only [demoP, List.mem_cons, List.not_mem_nil, or_false] at hv
    rcases hv with rfl | rfl | rfl <;> simp [demoP]
  · intro v hv; simp [demoP] at hv
  · intro u hu hk
    simp only [demoP, List.mem_cons, List.not_mem_nil, or_false] at hu
    rcases hu with rfl | rfl | rfl | rfl | rfl | rfl <;> simp_all [globVar]
  · intro u hu hk
    simp only [demoP, List.mem_cons, List.not_mem_nil, or_false] at hu
    rcases hu with rfl | rfl | rfl | rfl | rfl | rfl <;> simp_all
  · intro v w n hv hw hne
    simp only [demoP] at hv hw
    split at hv <;> split at hw <;> simp_all
  · intro u hu hk w hw n hf hf'
    simp only [demoP] at hf'
    split at hf'
    · rename_i h
      simp only [demoP, List.mem_cons, List.not_mem_nil, or_false] at hw
      rw [h] at hw
      simp [globVar] at hw
    · cases hf'

/-- `local x; … a …` where `a` is a global treated as a member of `_ENV` (hint `member-keys`) and preserved as a member. -/
def demoM : Program where
  pico8 := true
  parent := fun s => if s = 0 then none else some 0
  labParent := fun _ => none
  decls := [⟨.loc, [120], 1, 1⟩]
  labels := []
  uses := [⟨1, ⟨.loc, [120], 1, 1⟩, false⟩, ⟨1, globVar [97], true⟩]
  fixed := fun v => if v = memVar [97] then some [97] else none

/-- The local `x` is renamed to `a`, and the use of the global `a` in its scope, which keeps its name, now means the local: the preserved
name was entered in `used_globals` of the scope but the comparison looks at `used_members`. -/
theorem C28_member_counterexample :
    ∃ r, renameLoop (demoM.cfg false [] [] []) (ident (identChars .compressed [])) 5 0 (startSt [⟨.loc, [120], 1, 1⟩] [] [] []) = some r ∧
      demoM.newName r (Use.eff ⟨1, globVar [97], true⟩) = some [97] ∧
      findVar (demoM.newItems r demoM.decls) [97] (scopeChain demoM.parent 1) = some ⟨.loc, [120], 1, 1⟩ ∧
      findVar (demoM.decls.map fun v => (v, v.name)) [97] (scopeChain demoM.parent 1) = none :=
  ⟨[(⟨.loc, [120], 1, 1⟩, [97])], by decide +kernel, by decide +kernel, by decide +kernel, by decide +kernel⟩

end Verif
