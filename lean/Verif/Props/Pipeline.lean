import Verif.RenameTokens
import Verif.RenameTidy
import Verif.Props.RenameTree
import Verif.Props.Short
/-
C69: a PICO-8 program that is renamed and minified and has its shorthands changed is read back as the program it was, up to names.
-/
namespace Verif.Mini
open Syntax LuaNorm LuaPrint
open Resolve (Setting Renames NewNames Same nodes nodeName newOf programOf renamed gotoLabel SameButName)
open Paren (Op Lang)

theorem findVar_name {items : List (RVar × List Nat)} {x : List Nat} : ∀ {ss : List Nat} {v : RVar}, findVar items x ss = some v → (v, x) ∈ items
  | [], _, h => by cases h
  | s :: ss, v, h => by
    rw [findVar] at h
    split at h
    · next p hp =>
      cases h
      have h1 := List.mem_filter.1 (List.mem_of_getLast? hp)
      simp only [Bool.and_eq_true, decide_eq_true_eq] at h1
      rw [← h1.2.2]
      exact h1.1
    · exact findVar_name h

theorem goto_name {ns : List Resolve.Node} {n : Resolve.Node} {v : RVar} (h : gotoLabel ns n = some v) : v.name = n.name := by
  obtain ⟨w, -, he⟩ := List.mem_map.1 (findVar_name h)
  rw [Prod.mk.injEq] at he
  rw [← he.1, he.2]

section
variable {pico8 : Bool} {k : Resolve.Keep} {lb : List Nm} {b : Block} {bg bm : List Nm} {r : List (RVar × Nm)}

/-- A node keeps its name or gets one that can be written. -/
theorem node_name (hr : Renames (programOf pico8 k lb b) bg bm r) {n : Resolve.Node} (hn : n ∈ nodes lb b) :
    nodeName k (programOf pico8 k lb b) r (nodes lb b) n = n.name ∨
      isIdentifier true (nodeName k (programOf pico8 k lb b) r (nodes lb b) n) = true := by
  have key : ∀ v : RVar, v.name = n.name → newOf (programOf pico8 k lb b) r v = n.name ∨ isIdentifier true (newOf (programOf pico8 k lb b) r v) = true := by
    intro v hv
    by_cases h : newOf (programOf pico8 k lb b) r v = v.name
    · exact .inl (h.trans hv)
    · exact .inr (Resolve.C63_valid hr h).1
  have hok := (Resolve.nodes_ok lb b).2 n hn
  cases h : n.ref <;> simp only [nodeName, h] <;> simp only [Resolve.NodeOk, h] at hok
  case bind v => exact key v hok.2.1
  case loc v => exact key v (Resolve.findIn_some hok.1).2.1
  case glob env => exact key _ rfl
  case mem f => exact key _ (by unfold Resolve.keyVar; split <;> rfl)
  case label v => exact key v hok.2.1
  case goto_ =>
    split
    · next v hv => exact key v (goto_name hv)
    · exact .inl rfl

end

/-- A name of the language is read as a name. -/
theorem sure_ident {s : Nm} (h : isIdentifier true s = true) : Sure (.id s) := by
  have e := C30_identifier true s h
  rw [← lexLines_all _ (n := 1) rfl, Option.map_eq_some_iff] at e
  obtain ⟨ts, h1, h2⟩ := e
  obtain ⟨⟨t, n⟩, rfl, h3⟩ := List.map_eq_singleton_iff.1 h2
  have := (lexLines_alone _ rfl h1 (t, n) (by simp)).1
  cases (h3 : t = _)
  exact ⟨this, rfl⟩

/-- Takes the place of a token of the source. -/
theorem renamed_source {isDig : Nat → Bool} {chars v40 : Bool} {th : K} {k : Resolve.Keep} {lb : List Nm} {b : Block} {bg bm : List Nm} {r : List (RVar × Nm)}
    (hr : Renames (programOf true k lb b) bg bm r) (h : AllT (FromSource isDig chars v40) (prB th false b)) :
    AllT (FromSource isDig chars v40) (prB th false (renamed k (programOf true k lb b) r lb b)) := by
  have own : ∀ x, Sure (.id x) → FromSource isDig chars v40 (.id x) := fun x hx => ⟨hx, fun s hs => by cases hs⟩
  have hself : FromSource isDig chars v40 (.id Resolve.selfName) := own _ (sure_ident (by decide +kernel))
  have hprint : FromSource isDig chars v40 (.id Resolve.printName) := own _ (sure_ident (by decide +kernel))
  refine alB th b false _ ?_ h
  intro y hy
  obtain ⟨n, hn, rfl⟩ := List.mem_map.1 hy
  rcases node_name hr hn with e | e
  · rw [e]; exact nodes_names th hself hprint h n hn
  · exact own _ (sure_ident e)

/-- The text that is written is read again, with the meaning of the renamed program. -/
theorem pico_again {isDig : Nat → Bool} (hd : AsciiDig isDig) (v37 v40 v42 tokens chars : Bool) (O : Sh) {n : Nat} {src : List Nat} {b : Block}
    (hsrc : ∀ c ∈ src, c < 256) (h : parseText .pico8 n src = some b) (ht : Tidy.Tidy .pico8 b) (hs : Strings isDig chars v40 src)
    {k : Resolve.Keep} {lb bg bm : List Nm} {r : List (RVar × Nm)} (hn : Renames (programOf true k lb b) bg bm r)
    (ha : Apt O .pico8 (renamed k (programOf true k lb b) r lb b)) {srcs : Nat → List Nat} {ts : List OTok}
    (hr : Renders true srcs (prB (thenTok .pico8 v42) false (shorten O (pico isDig v37 v40 tokens chars) (renamed k (programOf true k lb b) r lb b))) ts) :
    ∃ (b' : Block) (f : Nat), (∀ m, f ≤ m → parseText .pico8 m (outputTokens true true ts) = some b') ∧
      uB (nB .pico8 picoLit b') = uB (nB .pico8 picoLit (renamed k (programOf true k lb b) r lb b)) := by
  unfold parseText at h
  simp only [Option.bind_eq_some_iff] at h
  obtain ⟨i, hi, hb⟩ := h
  obtain ⟨i', -, m', hroot⟩ := Resolve.C63_text (k := k) (r := r) (lb := lb) hb (programOf true k lb b)
  have hR := hroot m' (Nat.le_refl _)
  obtain ⟨f, b', hf, hm⟩ := C66_parser (C := pico isDig v37 v40 tokens chars) (O := O) (pico_ok ..) (pico_keeps hd ..) v42 hR
    ((Tidy.tidy_s .pico8 b _).2 ht) ha
  refine ⟨b', f, fun m hmm => ?_, hm⟩
  have hall := (aB (thenTok .pico8 v42) (Q := FromSource isDig chars v40) (fun k hk => ⟨sure_fixed k hk, by rintro s rfl; exact hk.elim⟩)
    (thenTok_fixed _ _) (sh := false) (C61_sound hb) (read_source (L := .pico8) (fun c hc => small_valid (hsrc c hc)) hi hs)).1
  have hren := renamed_source hn hall
  have hsh := all_kB (O := O) (fun k hk => ⟨sure_fixed k hk, by rintro s rfl; exact hk.elim⟩) (thenTok_fixed .pico8 v42) _ .free hren
  have hmin := all_mB (pico_step hd v37 v40 tokens chars) (thenTok_fixed .pico8 v42) _ false false false hsh
  rw [show mB _ false false (kB O .free _) = shorten O (pico isDig v37 v40 tokens chars) _ from (shorten_eq _ ha).symm] at hmin
  unfold parseText
  rw [C65_tokens hr hmin (nnB (thenTok .pico8 v42) _ false), Option.bind_some]
  exact hf m hmm

/-- **C69.** Take the text of a tidy PICO-8 program (see C65).  Choose new names for its variables and write them into its tree (see C63), make and undo
shorthands (see C66), and minify it, with any options and for any version.  The text that is written — whichever of its tokens are taken from the source
and whichever were modified — is read as a program again.  Its meaning is that of the renamed program, and this is the original one up to the names: it
has the same tokens but for names, and every name in it refers to what it referred to before. -/
theorem C69_pico8 {isDig : Nat → Bool} (hd : AsciiDig isDig) (v37 v40 v42 tokens chars : Bool) (O : Sh) {n : Nat} {src : List Nat} {b : Block}
    (hsrc : ∀ c ∈ src, c < 256) (h : parseText .pico8 n src = some b) (ht : Tidy.Tidy .pico8 b) (hs : Strings isDig chars v40 src)
    {k : Resolve.Keep} {lb bg bm : List Nm} {r : List (RVar × Nm)} (hk : Setting k lb b bg) (hn : Renames (programOf true k lb b) bg bm r)
    (ha : Apt O .pico8 (renamed k (programOf true k lb b) r lb b)) {srcs : Nat → List Nat} {ts : List OTok}
    (hr : Renders true srcs (prB (thenTok .pico8 v42) false (shorten O (pico isDig v37 v40 tokens chars) (renamed k (programOf true k lb b) r lb b))) ts) :
    ∃ (R b' : Block) (f : Nat) (i i' : List T) (ρ μ : Nm → Nm),
      (∀ m, f ≤ m → parseText .pico8 m (outputTokens true true ts) = some b') ∧ uB (nB .pico8 picoLit b') = uB (nB .pico8 picoLit R) ∧
      LuaGrammar.Program .pico8 i b ∧ LuaGrammar.Program .pico8 i' R ∧ List.Forall₂ SameButName i i' ∧
      NewNames k lb b bg bm ρ μ ∧ List.Forall₂ (Same ρ μ) (LuaScope.program lb b) (LuaScope.program lb R) ∧
      LuaLabels.program R = LuaLabels.program b := by
  obtain ⟨b', f, hf, hm⟩ := pico_again hd v37 v40 v42 tokens chars O hsrc h ht hs hn ha hr
  unfold parseText at h
  simp only [Option.bind_eq_some_iff] at h
  obtain ⟨i, hi, hb⟩ := h
  obtain ⟨i', hsame, m', hroot⟩ := Resolve.C63_text (k := k) (r := r) (lb := lb) hb (programOf true k lb b)
  obtain ⟨ρ, μ, h1, h2, h3⟩ := Resolve.C63_meaning hk hn
  exact ⟨_, b', f, i, i', ρ, μ, hf, hm, C61_sound hb, C61_sound (hroot m' (Nat.le_refl _)), hsame, h1, h2, h3⟩

/-- The same without changing shorthands. -/
theorem C69_minified {isDig : Nat → Bool} (hd : AsciiDig isDig) (v37 v40 v42 tokens chars : Bool) {n : Nat} {src : List Nat} {b : Block}
    (hsrc : ∀ c ∈ src, c < 256) (h : parseText .pico8 n src = some b) (ht : Tidy.Tidy .pico8 b) (hs : Strings isDig chars v40 src)
    {k : Resolve.Keep} {lb bg bm : List Nm} {r : List (RVar × Nm)} (hk : Setting k lb b bg) (hn : Renames (programOf true k lb b) bg bm r)
    {srcs : Nat → List Nat} {ts : List OTok}
    (hr : Renders true srcs (prB (thenTok .pico8 v42) false (mini (pico isDig v37 v40 tokens chars) (renamed k (programOf true k lb b) r lb b))) ts) :
    ∃ (R b' : Block) (f : Nat) (i i' : List T) (ρ μ : Nm → Nm),
      (∀ m, f ≤ m → parseText .pico8 m (outputTokens true true ts) = some b') ∧ nB .pico8 picoLit b' = nB .pico8 picoLit R ∧
      LuaGrammar.Program .pico8 i b ∧ LuaGrammar.Program .pico8 i' R ∧ List.Forall₂ SameButName i i' ∧
      NewNames k lb b bg bm ρ μ ∧ List.Forall₂ (Same ρ μ) (LuaScope.program lb b) (LuaScope.program lb R) ∧
      LuaLabels.program R = LuaLabels.program b := by
  unfold parseText at h
  simp only [Option.bind_eq_some_iff] at h
  obtain ⟨i, hi, hb⟩ := h
  obtain ⟨i', hsame, m', hroot⟩ := Resolve.C63_text (k := k) (r := r) (lb := lb) hb (programOf true k lb b)
  have hR := hroot m' (Nat.le_refl _)
  obtain ⟨ρ, μ, h1, h2, h3⟩ := Resolve.C63_meaning hk hn
  obtain ⟨f, b', hf, hm⟩ := C64_pico8 hd v37 v40 v42 tokens chars hR ((Tidy.tidy_s .pico8 b _).2 ht)
  refine ⟨_, b', f, i, i', ρ, μ, fun m hmm => ?_, hm, C61_sound hb, C61_sound hR, hsame, h1, h2, h3⟩
  have hall := (aB (thenTok .pico8 v42) (Q := FromSource isDig chars v40) (fun k hk => ⟨sure_fixed k hk, by rintro s rfl; exact hk.elim⟩)
    (thenTok_fixed _ _) (sh := false) (C61_sound hb) (read_source (L := .pico8) (fun c hc => small_valid (hsrc c hc)) hi hs)).1
  have hmin := all_mB (pico_step hd v37 v40 tokens chars) (thenTok_fixed .pico8 v42) _ false false false (renamed_source hn hall)
  unfold parseText
  rw [C65_tokens hr hmin (nnB (thenTok .pico8 v42) _ false), Option.bind_some]
  exact hf m hmm

/-! ### What it looks like -/

/-- A program in plain Lua. -/
def longText : List Nat := codes "local count = 1\nfunction draw(count) if count then print(count, speed) end end\nspeed = count"

/-- Its tree. -/
def longTree : Block :=
  .cons (.local_ [("count", none)] (.cons (.num "1") .nil))
    (.cons (.func ⟨"draw", [], none⟩ [some "count"]
        (.cons (.if_ (.long (.var "count") (.cons (.call (.call (.var "print") false (.cons (.var "count") (.cons (.var "speed") .nil)))) .nil) .end_)) .nil))
      (.cons (.assign (.cons (.var "speed") .nil) (.cons (.var "count") .nil)) .nil))

/-- New names for it. -/
def longNames : List (RVar × Nm) := [(⟨.loc, "count", 2, 2⟩, "a"), (⟨.loc, "count", 1, 1⟩, "a"), (globVar "draw", "b"), (globVar "speed", "c")]

/-- The tree with the new names. -/
def longRenamed : Block := renamed Resolve.demoKeep (programOf true Resolve.demoKeep [] longTree) longNames [] longTree

-- all that is assumed holds for it
example : (∀ c ∈ longText, c < 256) ∧ parseText .pico8 60 longText = some longTree ∧ Tidy.Tidy .pico8 longTree ∧ Strings isDigit true true longText ∧
    Setting Resolve.demoKeep [] longTree ["print"] ∧ Renames (programOf true Resolve.demoKeep [] longTree) ["print"] [] longNames ∧
    Apt makeAll .pico8 longRenamed := by
  refine ⟨by decide +kernel, by decide +kernel, ?_, ?_, ⟨by decide, by simp, by simp, ?_, by decide +kernel, by simp [Resolve.demoKeep]⟩,
    Resolve.renames_of (fuel := 9) (by decide +kernel), ?_⟩
  · simp [longTree, Tidy.Tidy, Tidy.tB, Tidy.tS, Tidy.tI, Tidy.tT, Tidy.tE, Tidy.tEs, Tidy.flag, Tidy.flagI, Tidy.isRet0, Tidy.semis, Tidy.doB,
      Tidy.condS, Tidy.condI, Tidy.endsRet, Tidy.targets, Tidy.isTarget]
  · intro ts h s hs
    have e : (lexAll true longText).map (·.filter (·.1 == .string)) = some [] := by decide +kernel
    rw [h, Option.map_some] at e
    have hm : (TokKind.string, s) ∈ ts.filter (·.1 == .string) := List.mem_filter.2 ⟨hs, rfl⟩
    rw [Option.some.inj e] at hm
    cases hm
  · have : (Resolve.declsOf (nodes [] longTree)).all (fun v => v.name != envName) = true := by decide +kernel
    intro v hv w _ h
    simpa [h] using List.all_eq_true.1 this v hv
  · refine apt_plainB _ _ _ _ _ ?_
    have e : longRenamed = .cons (.local_ [("a", none)] (.cons (.num "1") .nil))
        (.cons (.func ⟨"b", [], none⟩ [some "a"]
            (.cons (.if_ (.long (.var "a") (.cons (.call (.call (.var "print") false (.cons (.var "a") (.cons (.var "c") .nil)))) .nil) .end_)) .nil))
          (.cons (.assign (.cons (.var "c") .nil) (.cons (.var "a") .nil)) .nil)) := by decide +kernel
    rw [e]
    simp [Plain.plB, Plain.plS, Plain.plI, Plain.plT, Plain.plE, Plain.plEs, Plain.parenB, Plain.parenE, Plain.isCond, Tidy.doB]

-- `local a=1function b(a)if(a)?a,c⏎end c=a`
example : text (written makeAll longRenamed) = "local a=1function b(a)if(a)?a,c\nend c=a" := by decide +kernel

end Verif.Mini
