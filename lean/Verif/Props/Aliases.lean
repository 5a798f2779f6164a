import Verif.AliasesLemmas
/-!
C92: names and arguments in hint comments, and the aliases defined for them in the code.
-/
namespace Verif.Aliases
open AliasSpec

/-- **C92.** The name and the arguments of a hint are read as they are written, whatever white space is around them. -/
theorem C92_split {text n args : List Nat} (h : Says text n args) : splitHint text = (n, args) := by
  have nospace : ∀ {n : List Nat}, Name n → (32 : Nat) ∉ n := by
    intro n hn hm; have := hn.2 32 hm; revert this; decide
  cases h with
  | bare hu hn hv =>
    unfold splitHint
    rw [strip_pad hu (tight_name hn) hv, splitFirst_none (nospace hn)]
    simp only
    rw [strip_tight (tight_name hn)]; rfl
  | args hu hn hv ha hne hw =>
    rename_i u v w
    unfold splitHint
    have hnt := tight_name hn
    have ht : Tight (n ++ 32 :: (v ++ args)) := by
      obtain ⟨x, n', rfl⟩ := List.exists_cons_of_ne_nil hn.1
      constructor
      · intro c hc; exact hnt.1 c (by simpa using hc)
      · intro c hc
        rw [List.getLast?_append, List.getLast?_cons, List.getLast?_append] at hc
        cases hl : args.getLast? with
        | none => exact absurd (List.getLast?_eq_none_iff.mp hl) hne
        | some y => rw [hl] at hc; exact ha.2 c (by rw [hl]; simpa using hc)
    have e : u ++ n ++ 32 :: (v ++ args ++ w) = u ++ (n ++ 32 :: (v ++ args)) ++ w := by simp
    rw [e, strip_pad hu ht hw, splitFirst_at (nospace hn)]
    simp only
    have := strip_pad hv ha (v := []) (by intro c hc; simp at hc)
    rw [List.append_nil] at this
    rw [strip_tight hnt, this]

theorem says_tight {text n args : List Nat} (h : Says text n args) : Tight args := by
  cases h with
  | bare => exact tight_nil
  | args _ _ _ ha _ _ => exact ha

theorem defines_tight {text a t p : List Nat} (h : Defines text a t p) : Tight p := by
  cases h with
  | mk _ _ _ _ hsays => exact says_tight hsays

/-- **C92.** A hint is read as the name that its own one stands for, with the arguments of the aliases before its own. -/
theorem C92_use {tbl : Table} {look : Look} (hl : ∀ n, tbl.lookup n = look n) (htt : TightTable look) {text n args f : List Nat} {ps : List (List Nat)}
    (h : Says text n args) (hs : Stands look n ps f) : ∃ k, ∀ fuel ≥ k, useHint fuel tbl text = some (f, spelled (ps ++ [args])) := by
  obtain ⟨k, hk⟩ := mapFuel_stands hl hs
  refine ⟨k, fun fuel hf => ?_⟩
  unfold useHint
  rw [C92_split h, hk fuel hf, spelled_append, spelled_one, strip_tight (tight_join (tight_stands htt hs) (says_tight h))]

theorem tight_update {look : Look} (htt : TightTable look) {a t p f : List Nat} {ps : List (List Nat)} (hs : Stands look t ps f) (hp : Tight p) :
    TightTable (update look a (f, spelled (ps ++ [p]))) := by
  intro n t' p' h
  unfold update at h
  split at h
  · simp only [Option.some.injEq, Prod.mk.injEq] at h
    rw [← h.2, spelled_append, spelled_one]
    exact tight_join (tight_stands htt hs) hp
  · exact htt n t' p' h

/-- A definition comment adds just what it says. -/
theorem defAlias_eq {tbl : Table} {look : Look} (hl : ∀ n, tbl.lookup n = look n) (htt : TightTable look) {text a t p f : List Nat} {ps : List (List Nat)}
    (h : Defines text a t p) (hs : Stands look t ps f) :
    ∃ k, ∀ fuel ≥ k, defAlias fuel tbl text = some ((a, f, spelled (ps ++ [p])) :: tbl) := by
  cases h with
  | mk hu ha h61 hv hsays =>
    rename_i u v h
    obtain ⟨k, hk⟩ := C92_use hl htt hsays hs
    refine ⟨k, fun fuel hf => ?_⟩
    have hb : ∀ {w : List Nat}, Blank w → (61 : Nat) ∉ w := by intro w hw hm; have := hw 61 hm; revert this; decide
    unfold defAlias
    rw [splitFirst_at (by simp [hb hu, h61, hb hv]), hk fuel hf]
    simp only [Option.map_some]
    rw [strip_pad hu (tight_name ha) hv]

theorem lookup_update {tbl : Table} {look : Look} (hl : ∀ n, tbl.lookup n = look n) (a : List Nat) (e : List Nat × List Nat) :
    ∀ n, ((a, e) :: tbl : Table).lookup n = update look a e n := by
  intro n
  unfold update
  rw [List.lookup_cons]
  by_cases h : n = a
  · subst h; simp
  · have : (n == a) = false := by simpa using h
    rw [this, if_neg h]; exact hl n

theorem run_defined {look look' : Look} {ds : List (List Nat × List Nat × List Nat)} (hd : Defined look ds look') :
    ∀ {tbl : Table} {texts : List (List Nat)}, (∀ n, tbl.lookup n = look n) → TightTable look →
      List.length texts = ds.length → (∀ x ∈ texts.zip ds, Defines x.1 x.2.1 x.2.2.1 x.2.2.2) →
      TightTable look' ∧ ∃ k tbl', (∀ fuel ≥ k, run fuel tbl texts = some tbl') ∧ ∀ n, tbl'.lookup n = look' n := by
  induction hd with
  | nil =>
    intro tbl texts hl htt hlen _
    have : texts = [] := List.length_eq_zero_iff.mp hlen
    subst this
    exact ⟨htt, 0, tbl, fun _ _ => rfl, hl⟩
  | cons hs _ ih =>
    intro tbl texts hl htt hlen hdef
    cases texts with
    | nil => simp at hlen
    | cons text texts =>
      have h1 := hdef _ (by rw [List.zip_cons_cons]; exact List.mem_cons_self)
      obtain ⟨k1, hk1⟩ := defAlias_eq hl htt h1 hs
      have hp := defines_tight h1
      obtain ⟨htt', k2, tbl', hk2, hl'⟩ := ih (lookup_update hl _ _) (tight_update htt hs hp) (by simpa using hlen)
        (fun x hx => hdef x (by rw [List.zip_cons_cons]; exact List.mem_cons_of_mem _ hx))
      refine ⟨htt', max k1 k2, tbl', fun fuel hf => ?_, hl'⟩
      rw [run, hk1 fuel (by omega)]
      exact hk2 fuel (by omega)

/-- **C92.** After any definitions, a hint is read as what its name stands for by them, with the arguments of the definitions before its own. -/
theorem C92_run {texts : List (List Nat)} {ds : List (List Nat × List Nat × List Nat)} {look : Look} (hlen : texts.length = ds.length)
    (hdef : ∀ x ∈ texts.zip ds, Defines x.1 x.2.1 x.2.2.1 x.2.2.2) (hd : Defined (fun _ => none) ds look)
    {text n args f : List Nat} {ps : List (List Nat)} (h : Says text n args) (hs : Stands look n ps f) :
    ∃ k, ∀ fuel ≥ k, (run fuel [] texts).bind (fun tbl => useHint fuel tbl text) = some (f, spelled (ps ++ [args])) := by
  obtain ⟨htt, k1, tbl, hk1, hl⟩ := run_defined hd (tbl := []) (fun _ => rfl) (fun _ _ _ h => by cases h) hlen hdef
  obtain ⟨k2, hk2⟩ := C92_use hl htt h hs
  refine ⟨max k1 k2, fun fuel hf => ?_⟩
  rw [hk1 fuel (by omega), Option.bind_some, hk2 fuel (by omega)]

/-- **C92.** An alias is an abbreviation: right after `a = t p`, the hint `a args` is read as `t p args` was before. -/
theorem C92_abbreviation {tbl : Table} {look : Look} (hl : ∀ n, tbl.lookup n = look n) (htt : TightTable look) {def_ a t p f : List Nat} {ps : List (List Nat)}
    (hdef : Defines def_ a t p) (hs : Stands look t ps f) (hne : f ≠ a) {short long args : List Nat}
    (h1 : Says short a args) (h2 : Says long t (spelled [p, args])) :
    ∃ k r, ∀ fuel ≥ k, (defAlias fuel tbl def_).bind (fun tbl' => useHint fuel tbl' short) = some r ∧ useHint fuel tbl long = some r := by
  obtain ⟨k1, hk1⟩ := defAlias_eq hl htt hdef hs
  obtain ⟨k2, hk2⟩ := C92_use hl htt h2 hs
  have hp := defines_tight hdef
  have hs' : Stands (update look a (f, spelled (ps ++ [p]))) a ([] ++ [spelled (ps ++ [p])]) f :=
    .step (by simp [update]) (.self (by simp [update, hne, stands_end hs]))
  obtain ⟨k3, hk3⟩ := C92_use (lookup_update hl a (f, spelled (ps ++ [p]))) (tight_update htt hs hp) h1 hs'
  refine ⟨max k1 (max k2 k3), _, fun fuel hf => ⟨?_, hk2 fuel (by omega)⟩⟩
  rw [hk1 fuel (by omega), Option.bind_some, hk3 fuel (by omega)]
  congr 2
  rw [List.nil_append, spelled_append, spelled_one, spelled_one, spelled_append, spelled_one, spelled_append, spelled_one, spelled_cons, spelled_one, join_assoc]

/-- **C92.** A new name does not change what other hints mean, unless they end in this name. -/
theorem C92_others {look : Look} {n f s : List Nat} {ps : List (List Nat)} (h : Stands look n ps f) (hs : look s = none) (hf : f ≠ s) (e : List Nat × List Nat) :
    Stands (update look s e) n ps f := by
  induction h with
  | self hn => exact .self (by simp only [update, hf, if_false]; exact hn)
  | step hn _ ih =>
    refine .step ?_ (ih hf)
    unfold update
    split
    · rename_i he; rw [he, hs] at hn; cases hn
    · exact hn

theorem proper_defined {look : Look} {ds : List (List Nat × List Nat × List Nat)} (h : Proper look ds) :
    (∀ n, ∃ ps f, Stands look n ps f) → ∃ look', Defined look ds look' ∧ ∀ n, ∃ ps f, Stands look' n ps f := by
  induction h with
  | nil => exact fun h => ⟨_, .nil, h⟩
  | cons hs hne _ ih =>
    intro hall
    obtain ⟨look', hd, hall'⟩ := ih fun n => by
      obtain ⟨ps, g, h⟩ := hall n
      exact stands_update (stands_end hs) hne h
    exact ⟨look', .cons hs hd, hall'⟩

/-- **C92.** If no definition makes a name stand for itself, the definitions and all hints after them are read to the end. -/
theorem C92_ends {texts : List (List Nat)} {ds : List (List Nat × List Nat × List Nat)} (hlen : texts.length = ds.length)
    (hdef : ∀ x ∈ texts.zip ds, Defines x.1 x.2.1 x.2.2.1 x.2.2.2) (hp : Proper (fun _ => none) ds) (text : List Nat) :
    ∃ k r, ∀ fuel ≥ k, (run fuel [] texts).bind (fun tbl => useHint fuel tbl text) = some r := by
  obtain ⟨look, hd, hall⟩ := proper_defined hp fun n => ⟨[], n, .self rfl⟩
  obtain ⟨_, k1, tbl, hk1, hl⟩ := run_defined hd (tbl := []) (fun _ => rfl) (fun _ _ _ h => by cases h) hlen hdef
  obtain ⟨ps, f, hs⟩ := hall (splitHint text).1
  obtain ⟨k2, hk2⟩ := mapFuel_stands hl hs
  refine ⟨max k1 k2, (f, pyStrip (join (spelled ps) (splitHint text).2)), fun fuel hf => ?_⟩
  rw [hk1 fuel (by omega), Option.bind_some]
  exact hk2 fuel (by omega) _

/-- **C92.** If a definition does make its name stand for itself, then a hint with this name is never read to the end. -/
theorem C92_self {tbl : Table} {look : Look} (hl : ∀ n, tbl.lookup n = look n) (htt : TightTable look) {def_ a t p : List Nat} {ps : List (List Nat)}
    (hdef : Defines def_ a t p) (hs : Stands look t ps a) {text args : List Nat} (h : Says text a args) :
    ∃ k tbl', (∀ fuel ≥ k, defAlias fuel tbl def_ = some tbl') ∧ ∀ fuel, useHint fuel tbl' text = none := by
  obtain ⟨k, hk⟩ := defAlias_eq hl htt hdef hs
  refine ⟨k, _, hk, fun fuel => ?_⟩
  unfold useHint
  rw [C92_split h]
  have : ∀ fuel args, mapFuel ((a, a, spelled (ps ++ [p])) :: tbl) fuel a args = none := by
    intro fuel
    induction fuel with
    | zero => intro args; rfl
    | succ m ih =>
      intro args
      rw [mapFuel, List.lookup_cons]
      simp only [beq_self_eq_true]
      exact ih _
  exact this fuel args

/-- So two names defined by each other make the tool hang: `a = b`, `b = a`, and the hint `a`. -/
theorem C92_cycle_counterexample : ∃ tbl, (∀ fuel ≥ 2, run fuel [] [[97, 61, 98], [98, 61, 97]] = some tbl) ∧ ∀ fuel, useHint fuel tbl [97] = none := by
  refine ⟨[([98], [98], []), ([97], [98], [])], fun fuel hf => ?_, fun fuel => ?_⟩
  · obtain ⟨m, rfl⟩ : ∃ m, fuel = m + 2 := ⟨fuel - 2, by omega⟩
    rfl
  · have hb : ∀ fuel, mapFuel [([98], [98], []), ([97], [98], [])] fuel [98] [] = none := by
      intro fuel
      induction fuel with
      | zero => rfl
      | succ m ih => exact ih
    cases fuel with
    | zero => rfl
    | succ m => exact hb m

/-- Only a space ends the name: after a line feed, the first word of the arguments is taken for a part of it. -/
theorem C92_newline_counterexample : splitHint [97, 10, 98, 32, 99] = ([97, 10, 98], [99]) := by decide +kernel

/-! Cases meeting the hypotheses: README.md's `--$def-alias: evally1 = evally myarg1 --etc` and `evally1 --etc2`, shortened: `a = b x`, then `c= a  y`, then ` c z`. -/
example : Defines [32, 97, 32, 61, 32, 98, 32, 120] [97] [98] [120] :=
  .mk (u := [32]) (a := [97]) (v := [32]) (h := [32, 98, 32, 120]) (by simp [Blank, pyIsSpace]) (by simp [Name, pyIsSpace]) (by simp) (by simp [Blank, pyIsSpace])
    (.args (u := [32]) (n := [98]) (v := []) (a := [120]) (w := []) (by simp [Blank, pyIsSpace]) (by simp [Name, pyIsSpace]) (by simp [Blank]) (by simp [Tight, pyIsSpace]) (by simp)
      (by simp [Blank]))
example : Proper (fun _ => none) [([97], [98], [120]), ([99], [97], [121])] :=
  .cons (.self rfl) (by simp) (.cons (.step (t := [98]) (p := [120]) (by simp [update, spelled]) (.self (by simp [update]))) (by simp) .nil)
example : (run 9 [] [[32, 97, 32, 61, 32, 98, 32, 120], [99, 61, 32, 97, 32, 32, 121]]).bind (fun tbl => useHint 9 tbl [32, 99, 32, 122]) =
    some ([98], [120, 32, 121, 32, 122]) := by decide +kernel
example : TightTable fun _ => none := fun _ _ _ h => by cases h

end Verif.Aliases
