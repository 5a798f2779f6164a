import Verif.RenameTreeGood
import Verif.RenameTreeText
import Mathlib.Data.List.Dedup
/-
C63: renaming changes nothing but names: the renamed text parses to the renamed tree, in which every name refers to what it referred to.
-/
namespace Verif.Resolve
open Syntax
open LuaScope (Occ)

/-! ### Specification -/

/-- The same occurrence after renaming: locals are the same declarations (`LuaScope` numbers them in the order of the text), globals and keys
have the names that `ρ` and `μ` say, and belong to the same `_ENV`; the names of labels do not matter (see `LuaLabels`). -/
inductive Same (ρ μ : Nm → Nm) : Occ → Occ → Prop
  | bind {n} : Same ρ μ (.bind n) (.bind n)
  | loc {n} : Same ρ μ (.loc n) (.loc n)
  | glob {x e} : Same ρ μ (.glob x e) (.glob (ρ x) e)
  | envKey {x} : Same ρ μ (.key x true) (.key (ρ x) true)
  | key {x} : Same ρ μ (.key x false) (.key (μ x) false)
  | label {x y} : Same ρ μ (.label x) (.label y)
  | goto_ {x y} : Same ρ μ (.goto_ x) (.goto_ y)

/-- The globals of a program, by name or as keys of `_ENV`. -/
def IsGlobal (lb : List Nm) (b : Block) (x : Nm) : Prop := (∃ e, .glob x e ∈ LuaScope.program lb b) ∨ .key x true ∈ LuaScope.program lb b

/-- The other keys of a program. -/
def IsKey (lb : List Nm) (b : Block) (x : Nm) : Prop := .key x false ∈ LuaScope.program lb b

/-- What is promised about the new names of the globals and the other keys of a program: different ones stay different, preserved ones stay,
and new ones are not built-in. -/
structure NewNames (k : Keep) (lb : List Nm) (b : Block) (bg bm : List Nm) (ρ μ : Nm → Nm) : Prop where
  globals : ∀ x y, IsGlobal lb b x → IsGlobal lb b y → ρ x = ρ y → x = y
  keys : ∀ x y, IsKey lb b x → IsKey lb b y → μ x = μ y → x = y
  keepGlobals : ∀ x, k.globals x = true → ρ x = x
  keepKeys : ∀ x, k.members x = true → μ x = x
  newGlobals : ∀ x, ρ x ≠ x → ρ x ∉ bg ∧ ρ x ≠ envName
  newKeys : ∀ x, μ x ≠ x → μ x ∉ bm

/-! ### Proof -/

section
variable {P : Program} {bg bm : List Nm} {r : List (RVar × Nm)}

/-- Variables of the same kind that are both used, globals or members, get different names. -/
theorem Renames.distinct (hr : Renames P bg bm r) {v w : RVar} (hv : ∃ u ∈ P.uses, u.eff = v) (hw : ∃ u ∈ P.uses, u.eff = w)
    (hk : v.kind = w.kind) (hg : v.kind = .glob ∨ v.kind = .mem) (own : ∀ v n, P.fixed v = some n → v.name = n)
    (h : newOf P r v = newOf P r w) : v.name = w.name := by
  have hnv := hr.hasName hv
  have hnw := hr.hasName hw
  obtain ⟨_, _, _, _, _, _, _, _, _, ho, hs, _, hr⟩ := hr
  have excl : ∀ {a b : RVar}, (∃ u ∈ P.uses, u.eff = b) → a.kind = b.kind → (a.kind = .glob ∨ a.kind = .mem) → P.fixed b = some (newOf P r b) →
      (a, newOf P r b) ∈ r → False := by
    rintro a b ⟨u, hu, rfl⟩ hab hak hfb ha
    have hname : P.useName u = newOf P r u.eff := by simp [Program.useName, hfb]
    rcases hak with hak | hak
    · refine ((C27_preserved ho hs hr ha).1 (by simp [hak])).2.1 ?_ (Or.inl (by simp [Clash1, hak, globVar]))
      simp only [Program.cfg, List.mem_append, List.mem_map, List.mem_filter, Bool.and_eq_true, decide_eq_true_eq]
      exact Or.inr ⟨u, ⟨hu, by rw [← hab, hak], by rw [hfb]; rfl⟩, hname⟩
    · refine ((C27_preserved ho hs hr ha).1 (by simp [hak])).2.2.1 ?_ (Or.inl (by simp [Clash1, hak, memVar]))
      simp only [Program.cfg, List.mem_append, List.mem_map, List.mem_filter, Bool.and_eq_true, decide_eq_true_eq]
      exact Or.inr ⟨u, ⟨hu, by rw [← hab, hak], by rw [hfb]; rfl⟩, hname⟩
  cases hfv : P.fixed v with
  | some n =>
    have e1 : newOf P r v = n := newOf_fixed hfv
    cases hfw : P.fixed w with
    | some m => rw [newOf_fixed hfv, newOf_fixed hfw] at h; rw [own v n hfv, own w m hfw, h]
    | none => exact (excl hv hk.symm (hk ▸ hg) (by rw [e1, hfv]) (by rw [h]; exact newOf_free hfw hnw)).elim
  | none =>
    have ev := newOf_free hfv hnv
    cases hfw : P.fixed w with
    | some m => exact (excl hw hk hg (by rw [newOf_fixed hfw, hfw]) (by rw [← h]; exact ev)).elim
    | none => rw [C27_globals_distinct ho hs hr ev (by rw [h]; exact newOf_free hfw hnw) hk hg]

end

section
variable {pico8 : Bool} {k : Keep} {lb : List Nm} {b : Block} {bg bm : List Nm} {r : List (RVar × Nm)}

theorem occ_node {o : Occ} (h : o ∈ LuaScope.program lb b) : ∃ n ∈ nodes lb b, occOf n = o := by
  rw [← C62_scopes] at h
  exact List.mem_map.1 h

theorem glob_node {x : Nm} {e : Option Nat} (h : Occ.glob x e ∈ LuaScope.program lb b) : ∃ n ∈ nodes lb b, n.name = x ∧ ∃ env, n.ref = .glob env := by
  obtain ⟨n, hn, ho⟩ := occ_node h
  cases hr : n.ref <;> simp only [occOf, hr] at ho <;> cases ho
  exact ⟨n, hn, rfl, _, hr⟩

theorem key_node {x : Nm} {f : Bool} (h : Occ.key x f ∈ LuaScope.program lb b) : ∃ n ∈ nodes lb b, n.name = x ∧ n.ref = .mem f := by
  obtain ⟨n, hn, ho⟩ := occ_node h
  cases hr : n.ref <;> simp only [occOf, hr] at ho <;> cases ho
  exact ⟨n, hn, rfl, hr⟩

theorem key_use {n : Node} (hn : n ∈ nodes lb b) {f : Bool} (h : n.ref = .mem f) : ∃ u ∈ (programOf pico8 k lb b).uses, u.eff = keyVar k f n.name :=
  ⟨⟨(final lb b).nscope, keyVar k f n.name, false⟩, mem_uses.2 ⟨n, hn, by simp [usesOf, h]⟩, rfl⟩

theorem keep_glob {x : Nm} (h : k.globals x = true) : (programOf pico8 k lb b).fixed (globVar x) = some x := by
  simp [programOf, fixedName, globVar, h]

theorem keep_mem {x : Nm} (h : k.members x = true) : (programOf pico8 k lb b).fixed (memVar x) = some x := by
  simp [programOf, fixedName, memVar, h]

/-- A global is used, or preserved and taken. -/
theorem global_cases (hs : Setting k lb b bg) {x : Nm} (h : IsGlobal lb b x) : (∃ u ∈ (programOf pico8 k lb b).uses, u.eff = globVar x) ∨
    (k.globals x = true ∧ ((∀ y, k.globals y = true) ∨ x ∈ bg)) := by
  have byGlob : ∀ e, Occ.glob x e ∈ LuaScope.program lb b → ∃ u ∈ (programOf pico8 k lb b).uses, u.eff = globVar x := by
    intro e h
    obtain ⟨n, hn, rfl, env, hr⟩ := glob_node h
    exact ⟨_, glob_use hn hr, rfl⟩
  rcases h with ⟨e, h⟩ | h
  · exact Or.inl (byGlob e h)
  · obtain ⟨n, hn, hnx, hr⟩ := key_node h
    cases hm : k.members x with
    | false =>
      obtain ⟨u, hu, he⟩ := key_use (pico8 := pico8) (k := k) hn hr
      exact Or.inl ⟨u, hu, by rw [he]; simp [keyVar, hnx, hm]⟩
    | true =>
      obtain ⟨h1, h2 | h2 | ⟨e, h2⟩⟩ := hs.envKeys x hm h
      · exact Or.inr ⟨h1, Or.inl h2⟩
      · exact Or.inr ⟨h1, Or.inr h2⟩
      · exact Or.inl (byGlob e h2)

theorem new_names (hs : Setting k lb b bg) (hr : Renames (programOf pico8 k lb b) bg bm r) : NewNames k lb b bg bm
    (fun x => newOf (programOf pico8 k lb b) r (globVar x)) (fun x => newOf (programOf pico8 k lb b) r (memVar x)) where
  globals := by
    intro x y hx hy h
    have half : ∀ {x y : Nm}, k.globals x = true → ((∀ y, k.globals y = true) ∨ x ∈ bg) → newOf (programOf pico8 k lb b) r (globVar x) =
        newOf (programOf pico8 k lb b) r (globVar y) → x = y := by
      intro x y hkx hx h
      rw [newOf_fixed (keep_glob hkx)] at h
      by_contra hne
      have hy := newOf_new (r := r) (P := programOf pico8 k lb b) (v := globVar y) (by rw [← h]; exact hne) (fun n hn => fixed_own hn)
      rcases hx with hx | hx
      · rw [keep_glob (hx y)] at hy; cases hy.1
      · rw [← h] at hy; exact hr.notBuiltin hy.2 rfl hx
    rcases global_cases (pico8 := pico8) hs hx with hx' | ⟨h1, h2⟩
    · rcases global_cases (pico8 := pico8) hs hy with hy' | ⟨h1, h2⟩
      · exact hr.distinct hx' hy' rfl (Or.inl rfl) (fun v n hn => fixed_own hn) h
      · exact (half h1 h2 h.symm).symm
    · exact half h1 h2 h
  keys := by
    intro x y hx hy h
    obtain ⟨n, hn, rfl, hnr⟩ := key_node hx
    obtain ⟨m, hm, rfl, hmr⟩ := key_node hy
    exact hr.distinct (key_use hn hnr) (key_use hm hmr) rfl (Or.inr rfl) (fun v n hn => fixed_own hn) h
  keepGlobals := fun x hx => newOf_fixed (keep_glob hx)
  keepKeys := fun x hx => newOf_fixed (keep_mem hx)
  newGlobals := by
    intro x hx
    have h := (newOf_new (v := globVar x) hx (fun n hn => fixed_own hn)).2
    exact ⟨hr.notBuiltin h rfl, hr.notEnv h (by simp [globVar])⟩
  newKeys := fun x hx => hr.notBuiltinMember (newOf_new (v := memVar x) hx (fun n hn => fixed_own hn)).2 rfl

theorem keyVar_env (hs : Setting k lb b bg) {n : Node} (hn : n ∈ nodes lb b) (h : n.ref = .mem true) :
    newOf (programOf pico8 k lb b) r (keyVar k true n.name) = newOf (programOf pico8 k lb b) r (globVar n.name) := by
  cases hm : k.members n.name with
  | false => simp [keyVar, hm]
  | true =>
    have hin : Occ.key n.name true ∈ LuaScope.program lb b := by
      rw [← C62_scopes]
      exact List.mem_map.2 ⟨n, hn, by simp [occOf, h]⟩
    have := hs.envKeys _ hm hin
    rw [newOf_fixed (keep_glob this.1)]
    simp only [keyVar, hm, Bool.not_true, Bool.and_false, Bool.false_eq_true, if_false]
    exact newOf_fixed (keep_mem hm)

/-- What the occurrences of the renamed program are. -/
theorem same_occ (hs : Setting k lb b bg) {n : Node} (hn : n ∈ nodes lb b) : Same (fun x => newOf (programOf pico8 k lb b) r (globVar x))
    (fun x => newOf (programOf pico8 k lb b) r (memVar x)) (occOf n)
    (occOf (renNode (newOf (programOf pico8 k lb b) r) (nodeName k (programOf pico8 k lb b) r (nodes lb b)) n)) := by
  have hid : ∀ nu v, (renV nu v).id = v.id := fun _ _ => rfl
  cases h : n.ref with
  | bind v => simp only [occOf, renNode, renRef, h, hid]; exact .bind
  | loc v => simp only [occOf, renNode, renRef, h, hid]; exact .loc
  | glob env =>
    simp only [occOf, renNode, renRef, h, Option.map_map, Function.comp_def, hid, nodeName]
    exact .glob
  | mem f =>
    simp only [occOf, renNode, renRef, h, nodeName]
    cases f with
    | true => rw [keyVar_env hs hn h]; exact .envKey
    | false => exact .key
  | label v => simp only [occOf, renNode, renRef, h]; exact .label
  | goto_ => simp only [occOf, renNode, renRef, h]; exact .goto_

/-- In the renamed program, every name refers to what it referred to before: the same declaration, the global or key of the corresponding
name, the same label. -/
theorem C63_meaning (hs : Setting k lb b bg) (hr : Renames (programOf pico8 k lb b) bg bm r) : ∃ ρ μ, NewNames k lb b bg bm ρ μ ∧
    List.Forall₂ (Same ρ μ) (LuaScope.program lb b) (LuaScope.program lb (renamed k (programOf pico8 k lb b) r lb b)) ∧
    LuaLabels.program (renamed k (programOf pico8 k lb b) r lb b) = LuaLabels.program b := by
  refine ⟨_, _, new_names hs hr, ?_, ?_⟩
  · rw [← C62_scopes, ← C62_scopes, nodes_renamed hs hr, List.map_map]
    rw [List.forall₂_map_left_iff, List.forall₂_map_right_iff, List.forall₂_same]
    exact fun n hn => same_occ hs hn
  · have hg := hs.gotos
    rw [← C62_labels lb, ← C62_labels lb, nodes_renamed hs hr] at *
    rw [List.filter_map, List.map_map]
    have hf : (fun n => n.ref == Ref.goto_) ∘ renNode (newOf (programOf pico8 k lb b) r) (nodeName k (programOf pico8 k lb b) r (nodes lb b)) =
        fun n => n.ref == Ref.goto_ := by
      funext n
      cases h : n.ref <;> simp [renNode, renRef, h]
    rw [hf]
    refine List.map_congr_left fun n hn => ?_
    rw [List.mem_filter] at hn
    have hgo : n.ref = .goto_ := by simpa using hn.2
    cases hv : gotoLabel (nodes lb b) n with
    | none =>
      refine absurd (List.mem_map.2 ⟨n, List.mem_filter.2 hn, ?_⟩) hg
      rw [hv]; rfl
    | some v =>
      simp only [Function.comp_apply]
      rw [goto_renamed hs hr hn.1 hgo hv]
      rfl

/-- The text of the renamed program differs from the original one in nothing but names, and the parser reads it as the renamed tree. -/
theorem C63_text {L : Paren.Lang} {n : Nat} {ts : List T} (h : root L n ts = some b) (P : Program) : ∃ ts', List.Forall₂ SameButName ts ts' ∧
    ∃ m, ∀ n, m ≤ n → root L n ts' = some (renamed k P r lb b) := by
  obtain ⟨ts', h1, h2⟩ := B_ren (C61_sound h) ((nodes lb b).map (nodeName k P r (nodes lb b))) .nil
  exact ⟨ts', h1, C61_complete h2⟩

/-- New names are identifiers of the language, and no reserved words. -/
theorem C63_valid (hr : Renames (programOf pico8 k lb b) bg bm r) {v : RVar} (h : newOf (programOf pico8 k lb b) r v ≠ v.name) :
    isIdentifier true (newOf (programOf pico8 k lb b) r v) = true ∧ ∀ w ∈ LuaWords.reserved, newOf (programOf pico8 k lb b) r v ≠ LuaWords.chars w := by
  have hm := (newOf_new h fun _ hn => fixed_own hn).2
  obtain ⟨_, _, focus, order, _, _, _, _, _, ho, hs, _, hr⟩ := hr
  obtain ⟨-, j, hj⟩ := (C27_each_once ho hs hr).2.2 _ hm
  obtain ⟨s, h1, h2⟩ := C26_is_identifier focus order ho true (.inl rfl) j
  rw [hj] at h1
  cases h1
  exact ⟨h2, fun w hw he => C26_not_reserved focus order ho j w hw (by rw [hj, ← he])⟩

/-- The variables to be renamed, each once. -/
def toRename (P : Program) : List RVar := (P.uses.map Use.eff).dedup.filter fun v => (P.fixed v).isNone

/-- Those of one kind. -/
def toRenameOf (P : Program) (k : VK) : List RVar := (toRename P).filter (·.kind = k)

theorem start_of (P : Program) : StartOk (toRenameOf P .loc) (toRenameOf P .glob) (toRenameOf P .mem) (toRenameOf P .lab) ∧
    P.Starts (toRenameOf P .loc ++ toRenameOf P .glob ++ toRenameOf P .mem ++ toRenameOf P .lab) := by
  have hnd : (toRename P).Nodup := List.Nodup.filter _ (List.nodup_dedup _)
  have hmem : ∀ v, v ∈ toRename P ↔ P.fixed v = none ∧ ∃ u ∈ P.uses, u.eff = v := by
    intro v
    simp only [toRename, List.mem_filter, List.mem_dedup, List.mem_map, Option.isNone_iff_eq_none]
    tauto
  refine ⟨⟨?_, ?_, ?_, ?_, ?_⟩, ?_⟩
  · intro v hv; simpa using (List.mem_filter.1 hv).2
  · intro v hv; simpa using (List.mem_filter.1 hv).2
  · intro v hv; simpa using (List.mem_filter.1 hv).2
  · intro v hv; simpa using (List.mem_filter.1 hv).2
  · simp only [toRenameOf, List.nodup_append, hnd.filter, true_and, List.mem_append, List.mem_filter, decide_eq_true_eq]
    refine ⟨⟨?_, ?_⟩, ?_⟩
    · rintro a ⟨_, ha⟩ c ⟨_, hc⟩ rfl; rw [ha] at hc; cases hc
    · rintro a (⟨_, ha⟩ | ⟨_, ha⟩) c ⟨_, hc⟩ rfl <;> rw [ha] at hc <;> cases hc
    · rintro a ((⟨_, ha⟩ | ⟨_, ha⟩) | ⟨_, ha⟩) c ⟨_, hc⟩ rfl <;> rw [ha] at hc <;> cases hc
  · intro v
    rw [← hmem v]
    simp only [toRenameOf, List.mem_append, List.mem_filter, decide_eq_true_eq]
    cases v.kind <;> simp

theorem renames_of {P : Program} {bg bm : List Nm} {fuel : Nat} {r : List (RVar × Nm)}
    (hr : renameLoop (P.cfg false bg bm []) (ident (identChars .compressed [])) fuel 0
      (startSt (toRenameOf P .loc) (toRenameOf P .glob) (toRenameOf P .mem) (toRenameOf P .lab)) = some r) : Renames P bg bm r :=
  ⟨false, [], .compressed, [], _, _, _, _, fuel, by simp, (start_of P).1, (start_of P).2, hr⟩

/-- Names can always be chosen. -/
theorem C63_exists (P : Program) (bg bm : List Nm) : ∃ r, Renames P bg bm r := by
  obtain ⟨fuel, r, hr⟩ := C27_ends (order := []) (P.cfg false bg bm []) .compressed (by simp)
    (startSt (toRenameOf P .loc) (toRenameOf P .glob) (toRenameOf P .mem) (toRenameOf P .lab))
  exact ⟨r, renames_of hr⟩

end

/-! ### Examples -/

/-- Everything is renamed except `print`. -/
def demoKeep : Keep := ⟨fun x => x == nm "print", fun _ => false⟩

-- local long=1 foo=long goto out function bar(arg) local long=arg return foo+long.key end ::out:: print(foo)
def demoTree : Block := .cons (.local_ [("long", none)] (.cons (.num "1") .nil)) (.cons (.assign (.cons (.var "foo") .nil) (.cons (.var "long") .nil))
  (.cons (.goto_ "out") (.cons (.func ⟨"bar", [], none⟩ [some "arg"] (.cons (.local_ [("long", none)] (.cons (.var "arg") .nil))
    (.cons (.return_ (.cons (.bin .plus (.var "foo") (.member (.var "long") "key")) .nil)) .nil)))
  (.cons (.label "out") (.cons (.call (.call (.var "print") false (.cons (.var "foo") .nil))) .nil)))))

-- local a=1 c=a goto a function b(a) local a=a return c+a.a end ::a:: print(c)
def demoTree' : Block := .cons (.local_ [("a", none)] (.cons (.num "1") .nil)) (.cons (.assign (.cons (.var "c") .nil) (.cons (.var "a") .nil))
  (.cons (.goto_ "a") (.cons (.func ⟨"b", [], none⟩ [some "a"] (.cons (.local_ [("a", none)] (.cons (.var "a") .nil))
    (.cons (.return_ (.cons (.bin .plus (.var "c") (.member (.var "a") "a")) .nil)) .nil)))
  (.cons (.label "a") (.cons (.call (.call (.var "print") false (.cons (.var "c") .nil))) .nil)))))

def demoNames : List (RVar × Nm) := [(⟨.loc, "long", 1, 1⟩, "a"), (⟨.loc, "arg", 2, 2⟩, "a"), (⟨.loc, "long", 3, 3⟩, "a"), (memVar "key", "a"),
  (⟨.lab, "out", 0, 1⟩, "a"), (globVar "bar", "b"), (globVar "foo", "c")]

example : Setting demoKeep [] demoTree ["print"] ∧ Renames (programOf true demoKeep [] demoTree) ["print"] [] demoNames ∧
    renamed demoKeep (programOf true demoKeep [] demoTree) demoNames [] demoTree = demoTree' := by
  refine ⟨⟨by decide, by simp, by simp, ?_, by decide +kernel, by simp [demoKeep]⟩, renames_of (fuel := 9) (by decide +kernel), by rfl⟩
  have : (declsOf (nodes [] demoTree)).all (fun v => v.name != envName) = true := by decide +kernel
  intro v hv w _ h
  simpa [h] using List.all_eq_true.1 this v hv

/-- The member `a` is preserved, no globals are. -/
def envKeep : Keep := ⟨fun _ => false, fun x => x == nm "a"⟩

-- _ENV.a=1 foo=2
def envTree : Block := .cons (.assign (.cons (.member (.var "_ENV") "a") .nil) (.cons (.num "1") .nil))
  (.cons (.assign (.cons (.var "foo") .nil) (.cons (.num "2") .nil)) .nil)

/-- A key of `_ENV` that is preserved as a member is not seen to be a global: another global, here `foo`, can get its name.  All other assumptions
hold. -/
theorem C63_env_key_counterexample : (declsOf (nodes [] envTree) = [] ∧ none ∉ LuaLabels.program envTree) ∧
    ∃ r, Renames (programOf true envKeep [] envTree) [] [] r ∧
      LuaScope.program [] envTree = [.loc 0, .key "a" true, .glob "foo" (some 0)] ∧
      LuaScope.program [] (renamed envKeep (programOf true envKeep [] envTree) r [] envTree) = [.loc 0, .key "a" true, .glob "a" (some 0)] :=
  ⟨⟨by rfl, by decide +kernel⟩, [(globVar "foo", "a")], renames_of (fuel := 9) (by decide +kernel), by rfl, by rfl⟩

end Verif.Resolve
