import Verif.Props.Pipeline
import Verif.Props.MinifyTron
/-
C73: a Picotron program that is renamed and minified and has its shorthands changed is read back as the program it was, up to names.
-/
namespace Verif.Mini
open Syntax LuaNorm LuaPrint
open Resolve (Setting Renames NewNames Same nodes nodeName newOf programOf renamed gotoLabel SameButName)
open Paren (Op Lang)

/-- A result of choosing names, without focus on characters (`--focus-chars`, pico_rename.py 147-148).  The option does not exist for Picotron
(run_shrinko.py 153-159). -/
def PlainRenames (P : Program) (bg bm : List Nm) (r : List (RVar × Nm)) : Prop :=
  ∃ (focusChars : Bool) (az : List RVar) (focus : Focus) (order : List Nat) (ls gs ms bs : List RVar) (fuel : Nat), focus ≠ .chars ∧ order.Nodup ∧
    StartOk ls gs ms bs ∧ P.Starts (ls ++ gs ++ ms ++ bs) ∧
    renameLoop (P.cfg focusChars bg bm az) (ident (identChars focus order)) fuel 0 (startSt ls gs ms bs) = some r

theorem PlainRenames.renames {P : Program} {bg bm : List Nm} {r : List (RVar × Nm)} (h : PlainRenames P bg bm r) : Renames P bg bm r := by
  obtain ⟨a, b, c, d, e, f, g, i, j, -, h⟩ := h
  exact ⟨a, b, c, d, e, f, g, i, j, h⟩

section
variable {pico8 : Bool} {k : Resolve.Keep} {lb : List Nm} {b : Block} {bg bm : List Nm} {r : List (RVar × Nm)}

/-- **C73**, names: without focus on characters every new name is an identifier of Lua. -/
theorem C73_valid (hr : PlainRenames (programOf pico8 k lb b) bg bm r) {v : RVar} (h : newOf (programOf pico8 k lb b) r v ≠ v.name) :
    isIdentifier false (newOf (programOf pico8 k lb b) r v) = true ∧ LuaWords.IsName (newOf (programOf pico8 k lb b) r v) := by
  have hm := (Resolve.newOf_new h fun _ hn => Resolve.fixed_own hn).2
  obtain ⟨_, _, focus, order, _, _, _, _, _, hf, ho, hs, _, hr⟩ := hr
  obtain ⟨-, j, hj⟩ := (C27_each_once ho hs hr).2.2 _ hm
  obtain ⟨s, h1, h2⟩ := C26_is_identifier focus order ho false (.inr hf) j
  obtain ⟨s', h3, h4⟩ := C26_lua_name focus order ho hf j
  rw [hj] at h1 h3
  cases h1
  cases h3
  exact ⟨h2, h4⟩

theorem node_name_plain (hr : PlainRenames (programOf pico8 k lb b) bg bm r) {n : Resolve.Node} (hn : n ∈ nodes lb b) :
    nodeName k (programOf pico8 k lb b) r (nodes lb b) n = n.name ∨
      isIdentifier false (nodeName k (programOf pico8 k lb b) r (nodes lb b) n) = true := by
  have key : ∀ v : RVar, v.name = n.name → newOf (programOf pico8 k lb b) r v = n.name ∨ isIdentifier false (newOf (programOf pico8 k lb b) r v) = true := by
    intro v hv
    by_cases h : newOf (programOf pico8 k lb b) r v = v.name
    · exact .inl (h.trans hv)
    · exact .inr (C73_valid hr h).1
  have hok := (Resolve.nodes_ok lb b).2 n hn
  cases h : n.ref <;> simp only [nodeName, h] <;> simp only [Resolve.NodeOk, h] at hok
  case bind v => exact key v hok.2.1
  case loc v => exact key v (Resolve.findIn_some hok.1).2.1
  case glob env => exact key _ rfl
  case mem f => exact key _ (by unfold Resolve.keyVar; split <;> rfl)
  case label v => exact key v hok.2.1
  case goto_ =>
    split
    · next v hv => exact key v (goto_name hv)
    · exact .inl rfl

end

/-- A name of the language is read as a name. -/
theorem sure_name {p8 : Bool} {s : Nm} (h : isIdentifier p8 s = true) : SureIn p8 (.id s) := by
  have e := C30_identifier p8 s h
  rw [← lexLines_all _ (n := 1) rfl, Option.map_eq_some_iff] at e
  obtain ⟨ts, h1, h2⟩ := e
  obtain ⟨⟨t, n⟩, rfl, h3⟩ := List.map_eq_singleton_iff.1 h2
  have := (lexLines_alone _ rfl h1 (t, n) (by simp)).1
  cases (h3 : t = _)
  exact ⟨this, rfl⟩

theorem renamed_plain {isDig : Nat → Bool} {chars v40 : Bool} {th : K} {k : Resolve.Keep} {lb : List Nm} {b : Block} {bg bm : List Nm} {r : List (RVar × Nm)}
    (hr : PlainRenames (programOf false k lb b) bg bm r) (h : AllT (FromIn false isDig chars v40) (prB th false b)) :
    AllT (FromIn false isDig chars v40) (prB th false (renamed k (programOf false k lb b) r lb b)) := by
  have own : ∀ x, SureIn false (.id x) → FromIn false isDig chars v40 (.id x) := fun x hx => ⟨hx, fun s hs => by cases hs⟩
  have hself : FromIn false isDig chars v40 (.id Resolve.selfName) := own _ (sure_name (by decide +kernel))
  have hprint : FromIn false isDig chars v40 (.id Resolve.printName) := own _ (sure_name (by decide +kernel))
  refine alB th b false _ ?_ h
  intro y hy
  obtain ⟨n, hn, rfl⟩ := List.mem_map.1 hy
  rcases node_name_plain hr hn with e | e
  · rw [e]; exact nodes_names th hself hprint h n hn
  · exact own _ (sure_name e)

/-- The text that is written is read again, with the meaning of the renamed program. -/
theorem tron_again {isDig : Nat → Bool} (hd : AsciiDig isDig) (v37 v40 v42 tokens chars : Bool) (O : Sh) {n : Nat} {src : List Nat} {b : Block}
    (hsrc : ∀ c ∈ src, Fits c) (h : parseText .picotron n src = some b) (ht : Tidy.Tidy .picotron b) (hs : StringsIn false isDig chars v40 src)
    {k : Resolve.Keep} {lb bg bm : List Nm} {r : List (RVar × Nm)} (hn : PlainRenames (programOf false k lb b) bg bm r)
    (ha : Apt O .picotron (renamed k (programOf false k lb b) r lb b)) {srcs : Nat → List Nat} {ts : List OTok}
    (hr : Renders false srcs (prB (thenTok .picotron v42) false (shorten O (tron doubles isDig v37 v40 tokens chars) (renamed k (programOf false k lb b) r lb b))) ts) :
    ∃ (b' : Block) (f : Nat), (∀ m, f ≤ m → parseText .picotron m (outputTokens false true ts) = some b') ∧
      uB (nB .picotron (tronLit doubles) b') = uB (nB .picotron (tronLit doubles) (renamed k (programOf false k lb b) r lb b)) := by
  unfold parseText at h
  simp only [Option.bind_eq_some_iff] at h
  obtain ⟨i, hi, hb⟩ := h
  obtain ⟨i', -, m', hroot⟩ := Resolve.C63_text (k := k) (r := r) (lb := lb) hb (programOf false k lb b)
  have hR := hroot m' (Nat.le_refl _)
  obtain ⟨f, b', hf, hm⟩ := C66_parser (C := tron doubles isDig v37 v40 tokens chars) (O := O) (tron_ok doubles_ok ..) (tron_keeps doubles_ok hd ..) v42 hR
    ((Tidy.tidy_s .picotron b _).2 ht) ha
  refine ⟨b', f, fun m hmm => ?_, hm⟩
  have hall := (aB (thenTok .picotron v42) (Q := FromIn false isDig chars v40) (fun k hk => ⟨sure_fixed k hk, by rintro s rfl; exact hk.elim⟩)
    (thenTok_fixed _ _) (sh := false) (C61_sound hb) (read_source (L := .picotron) hsrc hi hs)).1
  have hren := renamed_plain hn hall
  have hsh := all_kB (O := O) (fun k hk => ⟨sure_fixed k hk, by rintro s rfl; exact hk.elim⟩) (thenTok_fixed .picotron v42) _ .free hren
  have hmin := all_mB (tron_step doubles_ok hd v37 v40 tokens chars) (thenTok_fixed .picotron v42) _ false false false hsh
  rw [show mB _ false false (kB O .free _) = shorten O (tron doubles isDig v37 v40 tokens chars) _ from (shorten_eq _ ha).symm] at hmin
  unfold parseText
  have hw := C65_written (L := .picotron) hr hmin (nnB (thenTok .picotron v42) _ false)
  rw [show outputTokens (Lang.picotron == .pico8) true ts = outputTokens false true ts from rfl] at hw
  rw [hw, Option.bind_some]
  exact hf m hmm

/-- **C73.** Take the text of a tidy Picotron program (see C72).  Choose new names for its variables, without focus on characters, and write them into
its tree (see C63), make and undo shorthands (see C66), and minify it, with any options and for any version.  The text that is written — whichever of
its tokens are taken from the source and whichever were modified — is read as a program again.  Its meaning is that of the renamed program, and this is
the original one up to the names: it has the same tokens but for names, and every name in it refers to what it referred to before. -/
theorem C73_picotron {isDig : Nat → Bool} (hd : AsciiDig isDig) (v37 v40 v42 tokens chars : Bool) (O : Sh) {n : Nat} {src : List Nat} {b : Block}
    (hsrc : ∀ c ∈ src, Fits c) (h : parseText .picotron n src = some b) (ht : Tidy.Tidy .picotron b) (hs : StringsIn false isDig chars v40 src)
    {k : Resolve.Keep} {lb bg bm : List Nm} {r : List (RVar × Nm)} (hk : Setting k lb b bg) (hn : PlainRenames (programOf false k lb b) bg bm r)
    (ha : Apt O .picotron (renamed k (programOf false k lb b) r lb b)) {srcs : Nat → List Nat} {ts : List OTok}
    (hr : Renders false srcs (prB (thenTok .picotron v42) false (shorten O (tron doubles isDig v37 v40 tokens chars) (renamed k (programOf false k lb b) r lb b))) ts) :
    ∃ (R b' : Block) (f : Nat) (i i' : List T) (ρ μ : Nm → Nm),
      (∀ m, f ≤ m → parseText .picotron m (outputTokens false true ts) = some b') ∧
      uB (nB .picotron (tronLit doubles) b') = uB (nB .picotron (tronLit doubles) R) ∧
      LuaGrammar.Program .picotron i b ∧ LuaGrammar.Program .picotron i' R ∧ List.Forall₂ SameButName i i' ∧
      NewNames k lb b bg bm ρ μ ∧ List.Forall₂ (Same ρ μ) (LuaScope.program lb b) (LuaScope.program lb R) ∧
      LuaLabels.program R = LuaLabels.program b := by
  obtain ⟨b', f, hf, hm⟩ := tron_again hd v37 v40 v42 tokens chars O hsrc h ht hs hn ha hr
  unfold parseText at h
  simp only [Option.bind_eq_some_iff] at h
  obtain ⟨i, hi, hb⟩ := h
  obtain ⟨i', hsame, m', hroot⟩ := Resolve.C63_text (k := k) (r := r) (lb := lb) hb (programOf false k lb b)
  obtain ⟨ρ, μ, h1, h2, h3⟩ := Resolve.C63_meaning hk hn.renames
  exact ⟨_, b', f, i, i', ρ, μ, hf, hm, C61_sound hb, C61_sound (hroot m' (Nat.le_refl _)), hsame, h1, h2, h3⟩

/-! ### What it looks like -/

theorem plain_renames_of {P : Program} {bg bm : List Nm} {fuel : Nat} {r : List (RVar × Nm)}
    (hr : renameLoop (P.cfg false bg bm []) (ident (identChars .compressed [])) fuel 0
      (startSt (Resolve.toRenameOf P .loc) (Resolve.toRenameOf P .glob) (Resolve.toRenameOf P .mem) (Resolve.toRenameOf P .lab)) = some r) :
    PlainRenames P bg bm r := by
  obtain ⟨h1, h2⟩ := Resolve.start_of P
  exact ⟨false, [], .compressed, [], _, _, _, _, fuel, by decide, by simp, h1, h2, hr⟩

/-- Names can always be chosen. -/
theorem C73_exists (P : Program) (bg bm : List Nm) : ∃ r, PlainRenames P bg bm r := by
  obtain ⟨fuel, r, hr⟩ := C27_ends (order := []) (P.cfg false bg bm []) .compressed (by simp)
    (startSt (Resolve.toRenameOf P .loc) (Resolve.toRenameOf P .glob) (Resolve.toRenameOf P .mem) (Resolve.toRenameOf P .lab))
  exact ⟨r, plain_renames_of hr⟩

/-- A program in plain Lua. -/
def tronLong : List Nat := codes "local count = 0.50\nfunction draw(count) if count then print(count, speed) end end\nspeed = count"

/-- Its tree. -/
def tronLongTree : Block :=
  .cons (.local_ [("count", none)] (.cons (.num "0.50") .nil))
    (.cons (.func ⟨"draw", [], none⟩ [some "count"]
        (.cons (.if_ (.long (.var "count") (.cons (.call (.call (.var "print") false (.cons (.var "count") (.cons (.var "speed") .nil)))) .nil) .end_)) .nil))
      (.cons (.assign (.cons (.var "speed") .nil) (.cons (.var "count") .nil)) .nil))

/-- The tree with the new names. -/
def tronRenamed : Block := renamed Resolve.demoKeep (programOf false Resolve.demoKeep [] tronLongTree) longNames [] tronLongTree

-- all that is assumed holds for it
example : (∀ c ∈ tronLong, Fits c) ∧ parseText .picotron 60 tronLong = some tronLongTree ∧ Tidy.Tidy .picotron tronLongTree ∧
    StringsIn false isDigit true true tronLong ∧ Setting Resolve.demoKeep [] tronLongTree ["print"] ∧
    PlainRenames (programOf false Resolve.demoKeep [] tronLongTree) ["print"] [] longNames ∧ Apt makeAll .picotron tronRenamed := by
  refine ⟨by decide +kernel, by decide +kernel, ?_, ?_, ⟨by decide, by simp, by simp, ?_, by decide +kernel, by simp [Resolve.demoKeep]⟩,
    plain_renames_of (fuel := 9) (by decide +kernel), ?_⟩
  · simp [tronLongTree, Tidy.Tidy, Tidy.tB, Tidy.tS, Tidy.tI, Tidy.tT, Tidy.tE, Tidy.tEs, Tidy.flag, Tidy.flagI, Tidy.isRet0, Tidy.semis, Tidy.doB,
      Tidy.condS, Tidy.condI, Tidy.endsRet, Tidy.targets, Tidy.isTarget]
  · intro ts h s hs
    have e : (lexAll false tronLong).map (·.filter (·.1 == .string)) = some [] := by decide +kernel
    rw [h, Option.map_some] at e
    have hm : (TokKind.string, s) ∈ ts.filter (·.1 == .string) := List.mem_filter.2 ⟨hs, rfl⟩
    rw [Option.some.inj e] at hm
    cases hm
  · have : (Resolve.declsOf (nodes [] tronLongTree)).all (fun v => v.name != envName) = true := by decide +kernel
    intro v hv w _ h
    simpa [h] using List.all_eq_true.1 this v hv
  · refine apt_plainB _ _ _ _ _ ?_
    have e : tronRenamed = .cons (.local_ [("a", none)] (.cons (.num "0.50") .nil))
        (.cons (.func ⟨"b", [], none⟩ [some "a"]
            (.cons (.if_ (.long (.var "a") (.cons (.call (.call (.var "print") false (.cons (.var "a") (.cons (.var "c") .nil)))) .nil) .end_)) .nil))
          (.cons (.assign (.cons (.var "c") .nil) (.cons (.var "a") .nil)) .nil)) := by decide +kernel
    rw [e]
    simp [Plain.plB, Plain.plS, Plain.plI, Plain.plT, Plain.plE, Plain.plEs, Plain.parenB, Plain.parenE, Plain.isCond, Tidy.doB]

-- `local a=.5 function b(a)if(a)?a,c⏎end c=a`
example : text (outputTokens false true (allNew (prB (thenTok .picotron true) false
    (shorten makeAll (tron doubles isDigit true true false true) tronRenamed)))) = "local a=.5 function b(a)if(a)?a,c\nend c=a" := by decide +kernel

end Verif.Mini
