import Verif.MergeTreePerm
import Verif.MergeTreeTokens
import Verif.Props.Elab
import Verif.Props.MergeProg
/-
C80: merging the local declarations of a syntax tree.
-/
set_option linter.unusedSimpArgs false
namespace Verif.Elab
open Syntax
open Core (World V Act R play console mergeProgram renBl NoBareBl Merge)
open LuaNorm (nB)
open LuaPrint (uB)
open Mini
open Resolve (Setting NewNames IsGlobal IsKey Same programOf renamed Renames)
open Mt (mergeTree mergeOf QuietB)

/-- The tree whose declarations are merged stands, by the language's rules about which declaration a name refers to, for the program whose declarations are
merged (see C75): only the numbers of the variables differ, one to one. -/
theorem C80_program (S : Sem) (lb : List Nm) (hS : S.given = lb.length + 1) (b : Block) (hint : List Nat → Bool) :
    ∃ f : Nat → Nat, (∀ x y, f x = f y → x = y) ∧ (∀ x, x ≤ lb.length → f x = x) ∧
      program S lb (mergeTree S (mergeOf lb b hint) lb b) = renBl f (mergeProgram (mergeOf lb b hint) (program S lb b)) :=
  Mt.program_merge S lb hS b hint

/-- **C80.** Merging the local declarations of a syntax tree, whose names may hide each other in any way, changes nothing that can be seen when the program
is run, with any arguments, in any world — if no `local x=f()` stands right before a `local y` without values. -/
theorem C80_tree_partial (S : Sem) (lb : List Nm) (hS : S.given = lb.length + 1) (b : Block) (hint : List Nat → Bool) (hb : NoBareBl (program S lb b) = true)
    {H : Type} (w : World H) (lang : Verif.Lang) (n : Nat) (va : List Core.V) (drive : List Core.V → H → Act H) (hp : H) :
    (play w lang n va drive (program S lb (mergeTree S (mergeOf lb b hint) lb b)) hp).seen = (play w lang n va drive (program S lb b) hp).seen := by
  obtain ⟨f, h1, -, h3⟩ := C80_program S lb hS b hint
  obtain ⟨s1, s2⟩ := C76_scoped S lb hS b
  rw [h3, Core.Alpha.play_ren h1, Core.C75_meaning_partial w lang _ s1 s2 hb]

/-- Shorthands, parentheses and literals are minified first (see C66), then declarations are merged: the resulting tree does what the original does when it is
run, if in the minified tree no `local x=f()` stands right before a `local y` without values. -/
theorem C80_minified_partial {C : Cfg} {V : LuaNorm.Lit} {O : Sh} (hC : C.Ok) (hV : C.Keeps V) {b : Block}
    (ht : Tidy.Tidy C.L b) (ha : Apt O C.L b) {lang : Verif.Lang} {S : Sem} {N : String → Num} {M : String → LV} (hr : Reads lang V S N M)
    (lb : List Nm) (hS : S.given = lb.length + 1) (hint : List Nat → Bool) (hb : NoBareBl (program S lb (shorten O C b)) = true)
    {H : Type} {w : World H} {arith : Bool} (hw : w.Ok lang arith) (n : Nat) (va : List Core.V) (drive : List Core.V → H → Act H) (hp : H) :
    (play w lang n va drive (program S lb (mergeTree S (mergeOf lb (shorten O C b) hint) lb (shorten O C b))) hp).seen =
      (play w lang n va drive (program S lb b) hp).seen := by
  rw [C80_tree_partial S lb hS _ hint hb]
  refine C76_normal (L := C.L) hr ?_ lb hw n va drive hp
  rw [shorten_eq C ha]
  exact congrArg uB (norm_mB hC hV C.L (kB O .free b) false false (cut_kB O C.L b _ (cut_ofB b _ ht.1))) |>.trans (norm_kB O C.L V b .free)

/-- The merged tree can be printed, if in the minified tree no `local y` without values stands before a statement that begins with a parenthesis (see
Verif/Spec/MergeQuiet.lean): what is printed is parsed as a tree with the same meaning. -/
theorem C80_printed_partial {C : Cfg} {V : LuaNorm.Lit} {O : Sh} (hC : C.Ok) (v42 : Bool) {n : Nat} {i : List T} {b : Block}
    (h : root C.L n i = some b) (ht : Tidy.Tidy C.L b) (ha : Apt O C.L b) (hq : QuietB (shorten O C b)) (S : Sem) (lb : List Nm) (o : Merge) :
    ∃ k b', (∀ m, k ≤ m → root C.L m (output (thenTok C.L v42) (mergeTree S o lb (shorten O C b))) = some b') ∧
      nB C.L V b' = nB C.L V (mergeTree S o lb (shorten O C b)) := by
  have hf := fine_mini hC (fine_k ha (fine_of (C61_sound h) ht))
  rw [← shorten_eq C ha] at hf
  have hm := fine_rf (Mt.fine_merge (S := S) (o := o) (lb := lb) hf hq)
  have hp := reparse (thenTok_ok C.L v42) hm
  rw [output_rf] at hp
  obtain ⟨k, hk⟩ := C61_complete hp
  exact ⟨k, _, hk, norm_rfB V _ false false⟩

/-- One step of the following theorems. -/
theorem pico_merged {isDig : Nat → Bool} (hd : AsciiDig isDig) (v37 v40 v42 tokens chars : Bool) (O : Sh) {n : Nat} {i : List T} {b : Block}
    (h : root .pico8 n i = some b) (ht : Tidy.Tidy .pico8 b) (ha : Apt O .pico8 b)
    (hall : AllT (FromSource isDig chars v40) (prB (thenTok .pico8 v42) false b))
    (enc : Prim → Nat) (builtin : Nm → Option Builtin) (lb : List Nm) (hint : List Nat → Bool) {M : Block}
    (hM : M = shorten O (pico isDig v37 v40 tokens chars) b)
    (hb : NoBareBl (program (picoSem enc (lb.length + 1) builtin) lb M) = true) (hq : QuietB M) {srcs : Nat → List Nat} {ts : List OTok}
    (hr : Renders true srcs (prB (thenTok .pico8 v42) false (mergeTree (picoSem enc (lb.length + 1) builtin) (mergeOf lb M hint) lb M)) ts) :
    ∃ f b', (∀ m, f ≤ m → parseText .pico8 m (outputTokens true true ts) = some b') ∧
      ∀ {H : Type} {w : World H} {arith : Bool}, w.Ok .pico8 arith → ∀ (n : Nat) (va : List Core.V) (drive : List Core.V → H → Act H) (hp : H),
        (play w .pico8 n va drive (program (picoSem enc (lb.length + 1) builtin) lb b') hp).seen =
          (play w .pico8 n va drive (program (picoSem enc (lb.length + 1) builtin) lb b) hp).seen := by
  subst hM
  obtain ⟨f, b', hf, hm⟩ := C80_printed_partial (C := pico isDig v37 v40 tokens chars) (V := picoLit) (O := O) (pico_ok ..) v42 h ht ha hq
    (picoSem enc (lb.length + 1) builtin) lb (mergeOf lb (shorten O (pico isDig v37 v40 tokens chars) b) hint)
  refine ⟨f, b', fun m hmm => ?_, fun hw n va drive hp => ?_⟩
  · have hsh := all_kB (O := O) (fun k hk => ⟨sure_fixed k hk, by rintro s rfl; exact hk.elim⟩) (thenTok_fixed .pico8 v42) _ .free hall
    have hmin := all_mB (pico_step hd v37 v40 tokens chars) (thenTok_fixed .pico8 v42) _ false false false hsh
    rw [show Mini.mB _ false false (kB O .free _) = shorten O (pico isDig v37 v40 tokens chars) _ from (shorten_eq _ ha).symm] at hmin
    unfold parseText
    rw [C65_tokens hr (Mt.all_merge (fun k hk => sure_fixed k hk) hmin) (nnB (thenTok .pico8 v42) _ false), Option.bind_some]
    exact hf m hmm
  · rw [C76_normal (pico_reads enc _ builtin) (congrArg uB hm) lb hw n va drive hp]
    exact C80_minified_partial (pico_ok ..) (pico_keeps hd ..) ht ha (pico_reads enc _ builtin) lb rfl hint hb hw n va drive hp

/-- **C80** for PICO-8: the text of a tidy program is minified (see C65, C66), its declarations are merged, and it is written.  It is read as a program that
does the same when it is run — if in the minified tree no `local x=f()` stands right before a `local y` without values, and no `local y` without values
before a statement that begins with a parenthesis. -/
theorem C80_pico8_partial {isDig : Nat → Bool} (hd : AsciiDig isDig) (v37 v40 v42 tokens chars : Bool) (O : Sh) {n : Nat} {src : List Nat} {b : Block}
    (hsrc : ∀ c ∈ src, c < 256) (h : parseText .pico8 n src = some b) (ht : Tidy.Tidy .pico8 b) (ha : Apt O .pico8 b)
    (hs : Strings isDig chars v40 src) (enc : Prim → Nat) (builtin : Nm → Option Builtin) (lb : List Nm) (hint : List Nat → Bool) {M : Block}
    (hM : M = shorten O (pico isDig v37 v40 tokens chars) b)
    (hb : NoBareBl (program (picoSem enc (lb.length + 1) builtin) lb M) = true) (hq : QuietB M) {srcs : Nat → List Nat} {ts : List OTok}
    (hr : Renders true srcs (prB (thenTok .pico8 v42) false (mergeTree (picoSem enc (lb.length + 1) builtin) (mergeOf lb M hint) lb M)) ts) :
    ∃ f b', (∀ m, f ≤ m → parseText .pico8 m (outputTokens true true ts) = some b') ∧
      ∀ {H : Type} {w : World H} {arith : Bool}, w.Ok .pico8 arith → ∀ (n : Nat) (va : List Core.V) (drive : List Core.V → H → Act H) (hp : H),
        (play w .pico8 n va drive (program (picoSem enc (lb.length + 1) builtin) lb b') hp).seen =
          (play w .pico8 n va drive (program (picoSem enc (lb.length + 1) builtin) lb b) hp).seen := by
  unfold parseText at h
  simp only [Option.bind_eq_some_iff] at h
  obtain ⟨i, hi, hbb⟩ := h
  have hall := (aB (thenTok .pico8 v42) (Q := FromSource isDig chars v40) (fun k hk => ⟨sure_fixed k hk, by rintro s rfl; exact hk.elim⟩)
    (thenTok_fixed _ _) (sh := false) (C61_sound hbb) (read_source (L := .pico8) (fun c hc => small_valid (hsrc c hc)) hi hs)).1
  exact pico_merged hd v37 v40 v42 tokens chars O hbb ht ha hall enc builtin lb hint hM hb hq hr

/-- A renamed program in a world that knows the new names is the original one in the world where every name means what its new name does. -/
theorem renamed_back {pico8 : Bool} {k : Resolve.Keep} {lb bg bm : List Nm} {b : Block} {r : List (RVar × Nm)} (hs : Setting k lb b bg)
    (hr : Renames (programOf pico8 k lb b) bg bm r) (hp : (LuaScope.program lb b).all plainOcc = true) (S : Sem) (hS : S.given = lb.length + 1)
    (hb : ∀ x f, S.builtin x = some f → k.globals x = true ∧ x ∈ bg) :
    ∃ (ρ μ : Nm → Nm), NewNames k lb b bg bm ρ μ ∧
      program S lb (renamed k (programOf pico8 k lb b) r lb b) = program { S with enc := fun p => S.enc (p.map ρ μ) } lb b := by
  obtain ⟨ρ, μ, h1, h2, -⟩ := Resolve.C63_meaning hs hr
  refine ⟨ρ, μ, h1, rB (G := IsGlobal lb b) (K := IsKey lb b) (ρ := ρ) (μ := μ) ?_ (by simp only; omega) b _ (plain_same h2 (fun _ ho => ho) hp)⟩
  exact {
    num := rfl
    str := rfl
    given := rfl
    builtin := by
      intro x _
      change S.builtin (ρ x) = S.builtin x
      cases hx : S.builtin x with
      | some f => rw [h1.keepGlobals x (hb x f hx).1, hx]
      | none =>
        by_cases e : ρ x = x
        · rw [e, hx]
        · cases hy : S.builtin (ρ x) with
          | none => rfl
          | some f => exact absurd (hb _ f hy).2 (h1.newGlobals x e).1
    glob := fun x hx => rfl
    member := fun x hx => rfl
    method := fun x hx => rfl
    opMember := fun o x hx => rfl
    table := fun its hx => rfl
    gvn := fun n => rfl
    elem := rfl
    un := fun o => rfl
    bin := fun o => rfl
    opElem := fun o => rfl
    number := fun s => rfl
    invalid := rfl }

/-- **C80** for PICO-8, with renaming: variables are renamed (see C63, C69), the program is minified, its declarations are merged, and it is written.  It is
read as a program that does the same, where every global and every key has its new name. -/
theorem C80_renamed_partial {isDig : Nat → Bool} (hd : AsciiDig isDig) (v37 v40 v42 tokens chars : Bool) (O : Sh) {n : Nat} {src : List Nat} {b : Block}
    (hsrc : ∀ c ∈ src, c < 256) (h : parseText .pico8 n src = some b) (ht : Tidy.Tidy .pico8 b) (hs : Strings isDig chars v40 src)
    {k : Resolve.Keep} {lb bg bm : List Nm} {r : List (RVar × Nm)} (hk : Setting k lb b bg) (hn : Renames (programOf true k lb b) bg bm r)
    (hp : (LuaScope.program lb b).all plainOcc = true)
    (ha : Apt O .pico8 (renamed k (programOf true k lb b) r lb b)) (enc : Prim → Nat) {builtin : Nm → Option Builtin}
    (hbi : ∀ x f, builtin x = some f → k.globals x = true ∧ x ∈ bg) (hint : List Nat → Bool) {M : Block}
    (hM : M = shorten O (pico isDig v37 v40 tokens chars) (renamed k (programOf true k lb b) r lb b))
    (hb : NoBareBl (program (picoSem enc (lb.length + 1) builtin) lb M) = true) (hq : QuietB M) {srcs : Nat → List Nat} {ts : List OTok}
    (hr : Renders true srcs (prB (thenTok .pico8 v42) false (mergeTree (picoSem enc (lb.length + 1) builtin) (mergeOf lb M hint) lb M)) ts) :
    ∃ (b' : Block) (f : Nat) (ρ μ : Nm → Nm), (∀ m, f ≤ m → parseText .pico8 m (outputTokens true true ts) = some b') ∧ NewNames k lb b bg bm ρ μ ∧
      ∀ {H : Type} {w : World H} {arith : Bool}, w.Ok .pico8 arith → ∀ (n : Nat) (va : List Core.V) (drive : List Core.V → H → Act H) (hp : H),
        (play w .pico8 n va drive (program (picoSem enc (lb.length + 1) builtin) lb b') hp).seen =
          (play w .pico8 n va drive (program (picoSem (fun p => enc (p.map ρ μ)) (lb.length + 1) builtin) lb b) hp).seen := by
  unfold parseText at h
  simp only [Option.bind_eq_some_iff] at h
  obtain ⟨i, hi, hbb⟩ := h
  obtain ⟨i', -, m', hroot⟩ := Resolve.C63_text (k := k) (r := r) (lb := lb) hbb (programOf true k lb b)
  have hall := (aB (thenTok .pico8 v42) (Q := FromSource isDig chars v40) (fun k hk => ⟨sure_fixed k hk, by rintro s rfl; exact hk.elim⟩)
    (thenTok_fixed _ _) (sh := false) (C61_sound hbb) (read_source (L := .pico8) (fun c hc => small_valid (hsrc c hc)) hi hs)).1
  obtain ⟨f, b', hf, hm⟩ := pico_merged hd v37 v40 v42 tokens chars O (hroot m' (Nat.le_refl _)) ((Tidy.tidy_s .pico8 b _).2 ht) ha
    (renamed_source hn hall) enc builtin lb hint hM hb hq hr
  obtain ⟨ρ, μ, h1, h2⟩ := renamed_back hk hn hp (picoSem enc (lb.length + 1) builtin) rfl hbi
  refine ⟨b', f, ρ, μ, hf, h1, fun hw n va drive hp => ?_⟩
  rw [hm hw, h2]
  rfl

/-- One step of the following theorem. -/
theorem tron_merged {isDig : Nat → Bool} (hd : AsciiDig isDig) (v37 v40 v42 tokens chars : Bool) (O : Sh) {n : Nat} {i : List T} {b : Block}
    (h : root .picotron n i = some b) (ht : Tidy.Tidy .picotron b) (ha : Apt O .picotron b)
    (hall : AllT (FromIn false isDig chars v40) (prB (thenTok .picotron v42) false b))
    (enc : Prim → Nat) (builtin : Nm → Option Builtin) (lb : List Nm) (hint : List Nat → Bool) {M : Block}
    (hM : M = shorten O (tron doubles isDig v37 v40 tokens chars) b)
    (hb : NoBareBl (program (tronSem doubles enc (lb.length + 1) builtin) lb M) = true) (hq : QuietB M) {srcs : Nat → List Nat} {ts : List OTok}
    (hr : Renders false srcs (prB (thenTok .picotron v42) false (mergeTree (tronSem doubles enc (lb.length + 1) builtin) (mergeOf lb M hint) lb M)) ts) :
    ∃ f b', (∀ m, f ≤ m → parseText .picotron m (outputTokens false true ts) = some b') ∧
      ∀ {H : Type} {w : World H} {arith : Bool}, w.Ok .picotron arith → ∀ (n : Nat) (va : List Core.V) (drive : List Core.V → H → Act H) (hp : H),
        (play w .picotron n va drive (program (tronSem doubles enc (lb.length + 1) builtin) lb b') hp).seen =
          (play w .picotron n va drive (program (tronSem doubles enc (lb.length + 1) builtin) lb b) hp).seen := by
  subst hM
  obtain ⟨f, b', hf, hm⟩ := C80_printed_partial (C := tron doubles isDig v37 v40 tokens chars) (V := tronLit doubles) (O := O) (tron_ok doubles_ok ..) v42 h ht ha hq
    (tronSem doubles enc (lb.length + 1) builtin) lb (mergeOf lb (shorten O (tron doubles isDig v37 v40 tokens chars) b) hint)
  refine ⟨f, b', fun m hmm => ?_, fun hw n va drive hp => ?_⟩
  · have hsh := all_kB (O := O) (fun k hk => ⟨sure_fixed k hk, by rintro s rfl; exact hk.elim⟩) (thenTok_fixed .picotron v42) _ .free hall
    have hmin := all_mB (tron_step doubles_ok hd v37 v40 tokens chars) (thenTok_fixed .picotron v42) _ false false false hsh
    rw [show Mini.mB _ false false (kB O .free _) = shorten O (tron doubles isDig v37 v40 tokens chars) _ from (shorten_eq _ ha).symm] at hmin
    unfold parseText
    have hw := C65_written (L := .picotron) hr (Mt.all_merge (fun k hk => sure_fixed k hk) hmin) (nnB (thenTok .picotron v42) _ false)
    rw [show outputTokens (Paren.Lang.picotron == .pico8) true ts = outputTokens false true ts from rfl] at hw
    rw [hw, Option.bind_some]
    exact hf m hmm
  · rw [C76_normal (tron_reads doubles enc _ builtin) (congrArg uB hm) lb hw n va drive hp]
    exact C80_minified_partial (tron_ok doubles_ok ..) (tron_keeps doubles_ok hd ..) ht ha (tron_reads doubles enc _ builtin) lb rfl hint hb hw n va drive hp

/-- **C80** for Picotron, with renaming (see C73): variables are renamed, the program is minified, its declarations are merged, and it is written.  It is
read as a program that does the same, where every global and every key has its new name. -/
theorem C80_picotron_partial {isDig : Nat → Bool} (hd : AsciiDig isDig) (v37 v40 v42 tokens chars : Bool) (O : Sh) {n : Nat} {src : List Nat} {b : Block}
    (hsrc : ∀ c ∈ src, Fits c) (h : parseText .picotron n src = some b) (ht : Tidy.Tidy .picotron b) (hs : StringsIn false isDig chars v40 src)
    {k : Resolve.Keep} {lb bg bm : List Nm} {r : List (RVar × Nm)} (hk : Setting k lb b bg) (hn : PlainRenames (programOf false k lb b) bg bm r)
    (hp : (LuaScope.program lb b).all plainOcc = true)
    (ha : Apt O .picotron (renamed k (programOf false k lb b) r lb b)) (enc : Prim → Nat) {builtin : Nm → Option Builtin}
    (hbi : ∀ x f, builtin x = some f → k.globals x = true ∧ x ∈ bg) (hint : List Nat → Bool) {M : Block}
    (hM : M = shorten O (tron doubles isDig v37 v40 tokens chars) (renamed k (programOf false k lb b) r lb b))
    (hb : NoBareBl (program (tronSem doubles enc (lb.length + 1) builtin) lb M) = true) (hq : QuietB M) {srcs : Nat → List Nat} {ts : List OTok}
    (hr : Renders false srcs (prB (thenTok .picotron v42) false (mergeTree (tronSem doubles enc (lb.length + 1) builtin) (mergeOf lb M hint) lb M)) ts) :
    ∃ (b' : Block) (f : Nat) (ρ μ : Nm → Nm), (∀ m, f ≤ m → parseText .picotron m (outputTokens false true ts) = some b') ∧ NewNames k lb b bg bm ρ μ ∧
      ∀ {H : Type} {w : World H} {arith : Bool}, w.Ok .picotron arith → ∀ (n : Nat) (va : List Core.V) (drive : List Core.V → H → Act H) (hp : H),
        (play w .picotron n va drive (program (tronSem doubles enc (lb.length + 1) builtin) lb b') hp).seen =
          (play w .picotron n va drive (program (tronSem doubles (fun p => enc (p.map ρ μ)) (lb.length + 1) builtin) lb b) hp).seen := by
  unfold parseText at h
  simp only [Option.bind_eq_some_iff] at h
  obtain ⟨i, hi, hbb⟩ := h
  obtain ⟨i', -, m', hroot⟩ := Resolve.C63_text (k := k) (r := r) (lb := lb) hbb (programOf false k lb b)
  have hall := (aB (thenTok .picotron v42) (Q := FromIn false isDig chars v40) (fun k hk => ⟨sure_fixed k hk, by rintro s rfl; exact hk.elim⟩)
    (thenTok_fixed _ _) (sh := false) (C61_sound hbb) (read_source (L := .picotron) hsrc hi hs)).1
  obtain ⟨f, b', hf, hm⟩ := tron_merged hd v37 v40 v42 tokens chars O (hroot m' (Nat.le_refl _)) ((Tidy.tidy_s .picotron b _).2 ht) ha
    (renamed_plain hn hall) enc builtin lb hint hM hb hq hr
  obtain ⟨ρ, μ, h1, h2⟩ := renamed_back hk hn.renames hp (tronSem doubles enc (lb.length + 1) builtin) rfl hbi
  refine ⟨b', f, ρ, μ, hf, h1, fun hw n va drive hp => ?_⟩
  rw [hm hw, h2]
  rfl

/-! ### Examples -/

/-- Nothing is hinted at. -/
def noHint : List Nat → Bool := fun _ => false

def demoSem : Sem := picoSem demoEnc 1 fun _ => none

/-- The tree with merged declarations. -/
def mergedOf (b : Block) : Block := mergeTree demoSem (mergeOf [] b noHint) [] b

/-- The text written for a tree. -/
def treeText (b : Block) : List Nat := outputTokens true true (allNew (prB (thenTok .pico8 true) false b))

/-- Names hide each other, blocks are nested, a declaration has no value and is put behind the next one. -/
def hidingText : List Nat :=
  codes "local a,z local b=3 local function f(p) local q=p local p,s=b,p return q+p+s end local b=f(a or 1) local c,d=b,2 print(b,c,d,z)"

example : (parseText .pico8 99 hidingText).map (fun b => text (treeText (mergedOf b))) =
    some "local b,a,z=3local function f(p)local q,p,s=p,b,p return q+p+s end local b=f(a or 1)local c,d=b,2print(b,c,d,z)" := by decide +kernel

-- both print 5, 5, 2 and nil
example : runText hidingText = runText (codes "local b,a,z=3local function f(p)local q,p,s=p,b,p return q+p+s end local b=f(a or 1)local c,d=b,2print(b,c,d,z)") ∧
    runText hidingText = some (.ok [] [(0, []), (0, [.base (.num 0x50000#32), .base (.num 0x50000#32), .base (.num 0x20000#32), .nil])]) := by
  decide +kernel

-- the assumptions
example : (parseText .pico8 99 hidingText).map (fun b => NoBareBl (program demoSem [] b)) = some true := by decide +kernel

-- `local a local a=1` is left alone: `local a,a=1` would mean the first one; `local a=1 local a=2` is merged
example : (parseText .pico8 99 (codes "local a local a=1 print(a)")).map (fun b => text (treeText (mergedOf b))) = some "local a local a=1print(a)" ∧
    (parseText .pico8 99 (codes "local a=1 local a=2 print(a)")).map (fun b => text (treeText (mergedOf b))) = some "local a,a=1,2print(a)" := by
  decide +kernel

/-- Two declarations that are merged, and a call. -/
def mergeText : List Nat := codes "local x = 1 local y print(x, y)"

/-- Its tree. -/
def mergeTree0 : Block :=
  .cons (.local_ [("x", none)] (.cons (.num "1") .nil)) (.cons (.local_ [("y", none)] .nil)
    (.cons (.call (.call (.var "print") false (.cons (.var "x") (.cons (.var "y") .nil)))) .nil))

-- all that `C80_pico8_partial` assumes holds for it
example : (∀ c ∈ mergeText, c < 256) ∧ parseText .pico8 60 mergeText = some mergeTree0 ∧ Tidy.Tidy .pico8 mergeTree0 ∧
    Strings isDigit true true mergeText ∧ Apt makeAll .pico8 mergeTree0 ∧ QuietB (shorten makeAll (pico isDigit true true false true) mergeTree0) ∧
    NoBareBl (program demoSem [] (shorten makeAll (pico isDigit true true false true) mergeTree0)) = true := by
  refine ⟨by decide +kernel, by decide +kernel, ?_, ?_, ?_, ?_, by decide +kernel⟩
  · simp [mergeTree0, Tidy.Tidy, Tidy.tB, Tidy.tS, Tidy.tI, Tidy.tT, Tidy.tE, Tidy.tEs, Tidy.flag, Tidy.flagI, Tidy.isRet0, Tidy.semis, Tidy.doB,
      Tidy.condS, Tidy.condI, Tidy.endsRet, Tidy.targets, Tidy.isTarget]
  · intro ts h s hs
    have e : (lexAll true mergeText).map (·.filter (·.1 == .string)) = some [] := by decide +kernel
    rw [h, Option.map_some] at e
    have hm : (TokKind.string, s) ∈ ts.filter (·.1 == .string) := List.mem_filter.2 ⟨hs, rfl⟩
    rw [Option.some.inj e] at hm
    exact absurd hm (by simp)
  · refine apt_plainB _ _ _ _ _ ?_
    simp [mergeTree0, Plain.plB, Plain.plS, Plain.plE, Plain.plEs, Plain.isCond]
  · have e : shorten makeAll (pico isDigit true true false true) mergeTree0 =
        .cons (.local_ [("x", none)] (.cons (.num "1") .nil)) (.cons (.local_ [("y", none)] .nil)
          (.cons (.print (.cons (.var "x") (.cons (.var "y") .nil))) .nil)) := by decide +kernel
    rw [e]
    simp [QuietB, Mt.QuietS, Mt.QuietEs, Mt.QuietE, Mt.bareS, leadB, leadS]

-- what is written
example : text (treeText (mergedOf (shorten makeAll (pico isDigit true true false true) mergeTree0))) = "local x,y=1?x,y" := by decide +kernel

-- `local x=gg local y` before `(fff)(1)` is not quiet (see `C80_call_counterexample`)
example : ¬ QuietB (.cons (.local_ [("x", none)] (.cons (.var "gg") .nil)) (.cons (.local_ [("y", none)] .nil)
    (.cons (.call (.call (.group (.var "fff")) false (.cons (.num "1") .nil))) .nil))) := by
  simp [QuietB, Mt.bareS, leadB, leadS, leadLp]

/-! ### Counterexamples -/

/-- `local x=gg local y` before a statement that begins with a parenthesis: written as it is merged, `gg` is called. -/
theorem C80_call_counterexample :
    ∃ b, parseText .pico8 99 (codes "local x=gg local y\n(fff)(1)") = some b ∧ NoBareBl (program demoSem [] b) = true ∧
      treeText (mergedOf b) = codes "local x,y=gg(fff)(1)" ∧
      runText (codes "local x=gg local y\n(fff)(1)") ≠ runText (treeText (mergedOf b)) := by
  have h : ((parseText .pico8 99 (codes "local x=gg local y\n(fff)(1)")).any fun b => NoBareBl (program demoSem [] b) &&
      decide (treeText (mergedOf b) = codes "local x,y=gg(fff)(1)") &&
      decide (runText (codes "local x=gg local y\n(fff)(1)") ≠ runText (treeText (mergedOf b)))) = true := by decide +kernel
  simp only [Option.any_eq_true, Bool.and_eq_true, decide_eq_true_eq] at h
  obtain ⟨b, h1, ⟨h2, h3⟩, h4⟩ := h
  exact ⟨b, h1, h2, h3, h4⟩

/-- Parentheses are removed before declarations are merged, so those of `local x=(gg()) local y` do not help: `y` takes the second value of `gg`. -/
theorem C80_group_counterexample :
    ∃ b, parseText .pico8 99 (codes "local function gg()return 1,2end local x=(gg())local y print(x,y)") = some b ∧ NoBareBl (program demoSem [] b) = true ∧
      treeText (mergedOf (shorten makeAll (pico isDigit true true false true) b)) = codes "local function gg()return 1,2end local x,y=gg()?x,y" ∧
      runText (codes "local function gg()return 1,2end local x=(gg())local y print(x,y)") ≠
        runText (treeText (mergedOf (shorten makeAll (pico isDigit true true false true) b))) := by
  have h : ((parseText .pico8 99 (codes "local function gg()return 1,2end local x=(gg())local y print(x,y)")).any fun b =>
      NoBareBl (program demoSem [] b) &&
      decide (treeText (mergedOf (shorten makeAll (pico isDigit true true false true) b)) = codes "local function gg()return 1,2end local x,y=gg()?x,y") &&
      decide (runText (codes "local function gg()return 1,2end local x=(gg())local y print(x,y)") ≠
        runText (treeText (mergedOf (shorten makeAll (pico isDigit true true false true) b))))) = true := by decide +kernel
  simp only [Option.any_eq_true, Bool.and_eq_true, decide_eq_true_eq] at h
  obtain ⟨b, h1, ⟨h2, h3⟩, h4⟩ := h
  exact ⟨b, h1, h2, h3, h4⟩

/-- Does every declaration have at most one variable that is closed (Lua 5.4 manual, 3.3.8: "A list of variables can contain at most one to-be-closed
variable")? -/
def fewClosed : Block → Bool
  | .nil => true
  | .semi b => fewClosed b
  | .cons (.local_ xs _) b => decide ((xs.filter fun x => x.2 == some (nm "close")).length ≤ 1) && fewClosed b
  | .cons _ b => fewClosed b

/-- Picotron: two variables to be closed end up in one declaration, which Lua does not accept. -/
theorem C80_close_counterexample :
    ∃ b, parseText .picotron 99 (codes "local a<close> =f() local b<close> =g()") = some b ∧ fewClosed b = true ∧ fewClosed (mergedOf b) = false := by
  have h : ((parseText .picotron 99 (codes "local a<close> =f() local b<close> =g()")).any fun b => fewClosed b && !fewClosed (mergedOf b)) = true := by
    decide +kernel
  simp only [Option.any_eq_true, Bool.and_eq_true, Bool.not_eq_true'] at h
  obtain ⟨b, h1, h2, h3⟩ := h
  exact ⟨b, h1, h2, h3⟩

end Verif.Elab
