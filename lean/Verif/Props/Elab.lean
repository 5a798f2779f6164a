import Verif.ElabPrint
import Verif.ElabScoped
import Verif.ElabLit
import Verif.ElabRename
import Verif.Props.Pipeline
import Verif.Props.PipelineTron
import Verif.Props.FoldProg
/-
C76: what the minified text of a program does when it is run.
-/
namespace Verif.Elab
open Syntax
open Core (World V Act R play console console_ok ScopedBl declaredBl)
open LuaNorm (nB)
open LuaPrint (uB)
open LuaScope (Occ)
open Resolve (Setting NewNames IsGlobal IsKey Same programOf renamed Renames)
open Mini

/-! ### The same meaning -/

/-- Trees with the same normal form (see C64, C66) do the same when they are run: with the same arguments, in every world that computes with
constants as the language does (and may call functions of the program at any time), they return the same values, fail or run on alike, and leave
the world in the same state after any number of steps. -/
theorem C76_normal {L : Paren.Lang} {V : LuaNorm.Lit} {lang : Verif.Lang} {S : Sem} {N : String → Num} {M : String → LV} (hr : Reads lang V S N M)
    {b b' : Block} (h : uB (nB L V b') = uB (nB L V b)) (lb : List Nm) {H : Type} {w : World H} {arith : Bool} (hw : w.Ok lang arith) (n : Nat)
    (va : List Core.V) (drive : List Core.V → H → Act H) (hp : H) :
    (play w lang n va drive (program S lb b') hp).seen = (play w lang n va drive (program S lb b) hp).seen := by
  unfold program
  rw [Core.Eqv.play_same hw (qB (L := L) hr b' _ _) n va drive hp, Core.Eqv.play_same hw (qB (L := L) hr b _ _) n va drive hp, ← vB _ (nB L V b'), h, vB]

/-- Every declaration of the program a tree stands for is a variable of its own, and used in its scope only: what C74 and C75 assume. -/
theorem C76_scoped (S : Sem) (lb : List Nm) (hS : S.given = lb.length + 1) (b : Block) :
    ScopedBl [] (program S lb b) ∧ (declaredBl (program S lb b)).Nodup := by
  refine ⟨sB b _ fun p hp => .inl ?_, (wB S b _ _).nodup⟩
  have := (Sees.bind (S := { S with given := 1 }) lb (env := [(nm "_ENV", 0)]) (D := []) (n := 1) fun p hp => .inl (by simp_all)) p hp
  rw [hS]
  rcases this with h | h
  · simp only at h; omega
  · simp only [List.append_nil, List.mem_range'_1] at h; omega

/-! ### Renaming -/

theorem Prim.map_inj {G K : Nm → Prop} {ρ μ : Nm → Nm} (hg : ∀ x y, G x → G y → ρ x = ρ y → x = y) (hk : ∀ x y, K x → K y → μ x = μ y → x = y) {p q : Prim}
    (hp : p.In G K) (hq : q.In G K) (h : p.map ρ μ = q.map ρ μ) : p = q := by
  cases p <;> cases q <;> simp only [Prim.map, reduceCtorEq, Prim.global.injEq, Prim.member.injEq, Prim.method.injEq, Prim.table.injEq,
    Prim.opMember.injEq] at h ⊢ <;> try exact h
  case global.global => exact hg _ _ hp hq h
  case member.member => exact hk _ _ hp hq h
  case method.method => exact hk _ _ hp hq h
  case opMember.opMember => exact ⟨h.1, hk _ _ hp hq h.2⟩
  case table.table as bs =>
    simp only [Prim.In] at hp hq
    induction as generalizing bs with
    | nil => cases bs with
      | nil => rfl
      | cons => cases h
    | cons a as ih => cases bs with
      | nil => cases h
      | cons b bs =>
        simp only [List.map_cons, List.cons.injEq] at h
        rw [ih (fun x hx => hp x (by simp [hx])) bs (fun x hx => hq x (by simp [hx])) h.2]
        congr 1
        match a, b, h.1, hp, hq with
        | none, none, _, _, _ => rfl
        | none, some _, h, _, _ => cases h
        | some _, none, h, _, _ => cases h
        | some none, some none, _, _, _ => rfl
        | some none, some (some _), h, _, _ => cases h
        | some (some _), some none, h, _, _ => cases h
        | some (some x), some (some y), h, hp, hq =>
          rw [hk x y (hp x (by simp)) (hq y (by simp)) (Option.some.inj (Option.some.inj h))]

open Classical in
/-- The numbers of things under their new names. -/
noncomputable def carried (G K : Nm → Prop) (ρ μ : Nm → Nm) (enc : Prim → Nat) (q : Prim) : Nat :=
  if h : ∃ p : Prim, p.In G K ∧ p.map ρ μ = q then enc h.choose else enc q

theorem carried_map {G K : Nm → Prop} {ρ μ : Nm → Nm} (hg : ∀ x y, G x → G y → ρ x = ρ y → x = y) (hk : ∀ x y, K x → K y → μ x = μ y → x = y)
    (enc : Prim → Nat) {p : Prim} (hp : p.In G K) : carried G K ρ μ enc (p.map ρ μ) = enc p := by
  have h : ∃ q : Prim, q.In G K ∧ q.map ρ μ = p.map ρ μ := ⟨p, hp, rfl⟩
  rw [carried, dif_pos h, Prim.map_inj hg hk h.choose_spec.1 hp h.choose_spec.2]

/-- No local `_ENV`, no keys of `_ENV`, no labels. -/
def plainOcc : Occ → Bool
  | .bind _ | .loc _ => true
  | .glob _ e => e == some 0
  | .key _ ofEnv => !ofEnv
  | .label _ | .goto_ _ => false

theorem plain_same {ρ μ : Nm → Nm} {lb : List Nm} {b : Block} {l l' : List Occ} (h : List.Forall₂ (Same ρ μ) l l')
    (hl : ∀ o ∈ l, o ∈ LuaScope.program lb b) (hp : l.all plainOcc = true) : List.Forall₂ (PSame (IsGlobal lb b) (IsKey lb b) ρ μ) l l' := by
  induction h with
  | nil => exact .nil
  | cons h1 h2 ih =>
    simp only [List.all_cons, Bool.and_eq_true] at hp
    refine .cons ?_ (ih (fun o ho => hl o (by simp [ho])) hp.2)
    cases h1 with
    | bind => exact .bind
    | loc => exact .loc
    | @glob x e =>
      have : e = some 0 := by simpa [plainOcc] using hp.1
      subst this
      exact .glob (.inl ⟨some 0, hl _ (by simp)⟩)
    | envKey => simp [plainOcc] at hp
    | key => exact .key (hl _ (by simp))
    | label => simp [plainOcc] at hp
    | goto_ => simp [plainOcc] at hp

/-- The renamed program is the same program, in a world whose globals and keys have the new names: whatever a global or key did, the one with the new
name does (`enc` says which thing of the world is meant).  The built-in functions are the same ones; they are assumed to be preserved and known to be
taken. -/
theorem C76_renamed {pico8 : Bool} {k : Resolve.Keep} {lb bg bm : List Nm} {b : Block} {r : List (RVar × Nm)} (hs : Setting k lb b bg)
    (hr : Renames (programOf pico8 k lb b) bg bm r) (hp : (LuaScope.program lb b).all plainOcc = true) (S : Sem) (hS : S.given = lb.length + 1)
    (hb : ∀ x f, S.builtin x = some f → k.globals x = true ∧ x ∈ bg) :
    ∃ (ρ μ : Nm → Nm) (enc : Prim → Nat), NewNames k lb b bg bm ρ μ ∧
      (∀ p : Prim, p.In (IsGlobal lb b) (IsKey lb b) → enc (p.map ρ μ) = S.enc p) ∧
      program { S with enc := enc } lb (renamed k (programOf pico8 k lb b) r lb b) = program S lb b := by
  obtain ⟨ρ, μ, h1, h2, -⟩ := Resolve.C63_meaning hs hr
  have he : ∀ p : Prim, p.In (IsGlobal lb b) (IsKey lb b) → carried (IsGlobal lb b) (IsKey lb b) ρ μ S.enc (p.map ρ μ) = S.enc p :=
    fun p hp => carried_map h1.globals h1.keys S.enc hp
  refine ⟨ρ, μ, _, h1, he, rB (G := IsGlobal lb b) (K := IsKey lb b) (ρ := ρ) (μ := μ) ?_ (by omega) b _ (plain_same h2 (fun _ ho => ho) hp)⟩
  exact {
    num := rfl
    str := rfl
    given := rfl
    builtin := by
      intro x _
      change S.builtin (ρ x) = S.builtin x
      cases hx : S.builtin x with
      | some f => rw [h1.keepGlobals x (hb x f hx).1, hx]
      | none =>
        by_cases e : ρ x = x
        · rw [e, hx]
        · cases hy : S.builtin (ρ x) with
          | none => rfl
          | some f => exact absurd (hb _ f hy).2 (h1.newGlobals x e).1
    glob := fun x hx => he (.global x) hx
    member := fun x hx => he (.member x) hx
    method := fun x hx => he (.method x) hx
    opMember := fun o x hx => he (.opMember o x) hx
    table := fun its hx => he (.table its) hx
    gvn := fun n => he (.given n) trivial
    elem := he .elem trivial
    un := fun o => he (.un o) trivial
    bin := fun o => he (.bin o) trivial
    opElem := fun o => he (.opElem o) trivial
    number := fun s => he (.number s) trivial
    invalid := he .invalid trivial }

/-! ### The minified text -/

/-- **C76** for PICO-8 without renaming: the minified text of a tidy program (see C65, C66) is read as a program that does the same when it is run. -/
theorem C76_pico8_text {isDig : Nat → Bool} (hd : AsciiDig isDig) (v37 v40 v42 tokens chars : Bool) (O : Sh) {n : Nat} {src : List Nat} {b : Block}
    (hsrc : ∀ c ∈ src, c < 256) (h : parseText .pico8 n src = some b) (ht : Tidy.Tidy .pico8 b) (ha : Apt O .pico8 b)
    (hs : Strings isDig chars v40 src) {srcs : Nat → List Nat} {ts : List OTok}
    (hr : Renders true srcs (prB (thenTok .pico8 v42) false (shorten O (pico isDig v37 v40 tokens chars) b)) ts) :
    ∃ f b', (∀ m, f ≤ m → parseText .pico8 m (outputTokens true true ts) = some b') ∧
      ∀ (enc : Prim → Nat) (builtin : Nm → Option Builtin) (lb : List Nm) {H : Type} {w : World H} {arith : Bool}, w.Ok .pico8 arith →
        ∀ (n : Nat) (va : List Core.V) (drive : List Core.V → H → Act H) (hp : H),
          (play w .pico8 n va drive (program (picoSem enc (lb.length + 1) builtin) lb b') hp).seen =
            (play w .pico8 n va drive (program (picoSem enc (lb.length + 1) builtin) lb b) hp).seen := by
  obtain ⟨f, b', hf, hm⟩ := C66_pico8 hd v37 v40 v42 tokens chars O hsrc h ht ha hs hr
  exact ⟨f, b', hf, fun enc bi lb _ _ _ hw n va drive hp => C76_normal (pico_reads enc _ bi) hm lb hw n va drive hp⟩

/-- **C76** for PICO-8 with renaming: the minified text of a tidy program without `_ENV` and labels (see C69) is read as a program that does the same when
it is run in a world whose globals and keys have the new names. -/
theorem C76_pico8_partial {isDig : Nat → Bool} (hd : AsciiDig isDig) (v37 v40 v42 tokens chars : Bool) (O : Sh) {n : Nat} {src : List Nat} {b : Block}
    (hsrc : ∀ c ∈ src, c < 256) (h : parseText .pico8 n src = some b) (ht : Tidy.Tidy .pico8 b) (hs : Strings isDig chars v40 src)
    {k : Resolve.Keep} {lb bg bm : List Nm} {r : List (RVar × Nm)} (hk : Setting k lb b bg) (hn : Renames (programOf true k lb b) bg bm r)
    (hp : (LuaScope.program lb b).all plainOcc = true)
    (ha : Apt O .pico8 (renamed k (programOf true k lb b) r lb b)) {srcs : Nat → List Nat} {ts : List OTok}
    (hr : Renders true srcs (prB (thenTok .pico8 v42) false (shorten O (pico isDig v37 v40 tokens chars) (renamed k (programOf true k lb b) r lb b))) ts)
    (enc : Prim → Nat) {builtin : Nm → Option Builtin} (hb : ∀ x f, builtin x = some f → k.globals x = true ∧ x ∈ bg) :
    ∃ (b' : Block) (f : Nat) (ρ μ : Nm → Nm) (enc' : Prim → Nat), (∀ m, f ≤ m → parseText .pico8 m (outputTokens true true ts) = some b') ∧
      NewNames k lb b bg bm ρ μ ∧ (∀ p : Prim, p.In (IsGlobal lb b) (IsKey lb b) → enc' (p.map ρ μ) = enc p) ∧
      ∀ {H : Type} {w : World H} {arith : Bool}, w.Ok .pico8 arith → ∀ (n : Nat) (va : List Core.V) (drive : List Core.V → H → Act H) (hp : H),
        (play w .pico8 n va drive (program (picoSem enc' (lb.length + 1) builtin) lb b') hp).seen =
          (play w .pico8 n va drive (program (picoSem enc (lb.length + 1) builtin) lb b) hp).seen := by
  obtain ⟨b', f, hf, hm⟩ := pico_again hd v37 v40 v42 tokens chars O hsrc h ht hs hn ha hr
  obtain ⟨ρ, μ, enc', h1, h2, h3⟩ := C76_renamed hk hn hp (picoSem enc (lb.length + 1) builtin) rfl hb
  refine ⟨b', f, ρ, μ, enc', hf, h1, h2, fun hw n va drive hp => ?_⟩
  rw [← h3]
  exact C76_normal (pico_reads enc' _ builtin) hm lb hw n va drive hp

/-- **C76** for Picotron. -/
theorem C76_picotron_partial {isDig : Nat → Bool} (hd : AsciiDig isDig) (v37 v40 v42 tokens chars : Bool) (O : Sh) {n : Nat} {src : List Nat} {b : Block}
    (hsrc : ∀ c ∈ src, Fits c) (h : parseText .picotron n src = some b) (ht : Tidy.Tidy .picotron b) (hs : StringsIn false isDig chars v40 src)
    {k : Resolve.Keep} {lb bg bm : List Nm} {r : List (RVar × Nm)} (hk : Setting k lb b bg) (hn : PlainRenames (programOf false k lb b) bg bm r)
    (hp : (LuaScope.program lb b).all plainOcc = true)
    (ha : Apt O .picotron (renamed k (programOf false k lb b) r lb b)) {srcs : Nat → List Nat} {ts : List OTok}
    (hr : Renders false srcs (prB (thenTok .picotron v42) false (shorten O (tron doubles isDig v37 v40 tokens chars) (renamed k (programOf false k lb b) r lb b))) ts)
    (enc : Prim → Nat) {builtin : Nm → Option Builtin} (hb : ∀ x f, builtin x = some f → k.globals x = true ∧ x ∈ bg) :
    ∃ (b' : Block) (f : Nat) (ρ μ : Nm → Nm) (enc' : Prim → Nat), (∀ m, f ≤ m → parseText .picotron m (outputTokens false true ts) = some b') ∧
      NewNames k lb b bg bm ρ μ ∧ (∀ p : Prim, p.In (IsGlobal lb b) (IsKey lb b) → enc' (p.map ρ μ) = enc p) ∧
      ∀ {H : Type} {w : World H} {arith : Bool}, w.Ok .picotron arith → ∀ (n : Nat) (va : List Core.V) (drive : List Core.V → H → Act H) (hp : H),
        (play w .picotron n va drive (program (tronSem doubles enc' (lb.length + 1) builtin) lb b') hp).seen =
          (play w .picotron n va drive (program (tronSem doubles enc (lb.length + 1) builtin) lb b) hp).seen := by
  obtain ⟨b', f, hf, hm⟩ := tron_again hd v37 v40 v42 tokens chars O hsrc h ht hs hn ha hr
  obtain ⟨ρ, μ, enc', h1, h2, h3⟩ := C76_renamed hk hn.renames hp (tronSem doubles enc (lb.length + 1) builtin) rfl hb
  refine ⟨b', f, ρ, μ, enc', hf, h1, h2, fun hw n va drive hp => ?_⟩
  rw [← h3]
  exact C76_normal (tron_reads doubles enc' _ builtin) hm lb hw n va drive hp

/-! ### Examples -/

/-- Things by number: `print` is 0, other globals have the number of letters of their name. -/
def demoEnc : Prim → Nat
  | .global x => if x = nm "print" then 0 else x.length
  | _ => 99

deriving instance DecidableEq for Core.Seen

/-- What can be seen of a text that is run. -/
def runText (src : List Nat) : Option (Core.Seen (List (Nat × List Core.V))) :=
  (parseText .pico8 99 src).map fun b =>
    (play (console .pico8 true) .pico8 20 [] (fun vs h => .ret vs h) (program (picoSem demoEnc 1 fun _ => none) [] b) []).seen

/-- Calls `show` twice, the second time with all its values. -/
def showText : List Nat := codes "local n = (5)\nlocal function show(a) return a+(n*2),-(1) end\nprint((show(n)))\nprint(show(0x.8))"

/-- It prints 15, then 10.5 and -1 (a number is asked for its function, 0, before it is called). -/
def showSeen : Core.Seen (List (Nat × List Core.V)) :=
  .ok [] [(0, []), (0, [.base (.num 0xf0000#32)]), (0, []), (0, [.base (.num 0xa8000#32), .base (.num 0xffff0000#32)])]

example : runText showText = some showSeen := by decide +kernel

-- without parentheses that do not matter; those of `?(show(n))` do
example : (parseText .pico8 99 showText).map (fun b => text (written makeAll b)) =
    some "local n=5local function show(a)return a+n*2,-1end?(show(n))\n?show(.5)" := by decide +kernel

example : runText (codes "local n=5local function show(a)return a+n*2,-1end?(show(n))\n?show(.5)") = some showSeen := by decide +kernel

-- without the parentheses it would print something else
example : runText (codes "local n=5local function show(a)return a+n*2,-1end?show(n)\n?show(.5)") ≠ some showSeen := by decide +kernel

-- the program of C69 has no `_ENV` and labels, and all other assumptions hold as well (see there)
example : (LuaScope.program [] longTree).all plainOcc = true := by decide +kernel

example (enc : Prim → Nat) : (picoSem enc 1 fun _ => none).num "0x.8" = .lit (.fix 0x8000) := picoSem_num _ _ _ (by decide +kernel)

end Verif.Elab
