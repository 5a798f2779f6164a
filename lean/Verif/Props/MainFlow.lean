import Verif.MainFlow
import Verif.Spec.MainFlow
/-! C88: what a run of the program writes, and when it writes nothing. -/
namespace Verif.Main
open Verif.MainSpec

variable {F Cart Err : Type} {w : World F Cart Err} {a b : Args F}

theorem takeOutput_output (a : Args F) : (takeOutput a).output = a.output.or a.additional.getLast? := by
  unfold takeOutput
  by_cases h : a.additional ≠ [] ∧ a.output = none
  · rw [if_pos h]; simp [h.2]
  · rw [if_neg h]
    cases ho : a.output with
    | some o => simp
    | none =>
      have : a.additional = [] := by
        by_cases e : a.additional = []
        · exact e
        · exact absurd ⟨e, ho⟩ h
      simp [this]

theorem takeOutput_additional (a : Args F) : (takeOutput a).additional = moreInputs a := by
  unfold takeOutput moreInputs
  by_cases h : a.additional ≠ [] ∧ a.output = none
  · rw [if_pos h, if_pos h.2]
  · rw [if_neg h]
    by_cases ho : a.output = none
    · have : a.additional = [] := by
        by_cases e : a.additional = []
        · exact e
        · exact absurd ⟨e, ho⟩ h
      simp [ho, this]
    · rw [if_neg ho]

/-- Options that nothing changes. -/
structure Same (a b : Args F) : Prop where
  minify : b.minify = a.minify
  minifyOther : b.minifyOther = a.minifyOther
  unminify : b.unminify = a.unminify
  lint : b.lint = a.lint
  noLintFail : b.noLintFail = a.noLintFail
  count : b.count = a.count
  inputCount : b.inputCount = a.inputCount
  noCountTokenize : b.noCountTokenize = a.noCountTokenize
  list : b.list = a.list
  dump : b.dump = a.dump
  syntaxScript : b.syntaxScript = a.syntaxScript
  extraOutput : b.extraOutput = a.extraOutput
  extract : b.extract = a.extract
  inPlace : b.inPlace = a.inPlace
  deleteCart : b.deleteCart = a.deleteCart
  renameCart : b.renameCart = a.renameCart

theorem Same.trans {a b c : Args F} (h : Same a b) (k : Same b c) : Same a c := by
  constructor <;> simp [h.1, h.2, h.3, h.4, h.5, h.6, h.7, h.8, h.9, h.10, h.11, h.12, h.13, h.14, h.15, h.16,
    k.1, k.2, k.3, k.4, k.5, k.6, k.7, k.8, k.9, k.10, k.11, k.12, k.13, k.14, k.15, k.16]

theorem same_takeOutput (a : Args F) : Same a (takeOutput a) := by unfold takeOutput; split <;> constructor <;> rfl
theorem same_useInput (a : Args F) : Same a (useInput a) := by unfold useInput; split <;> constructor <;> rfl
theorem same_onlyOutput (a : Args F) : Same a (onlyOutput a) := by unfold onlyOutput; split <;> constructor <;> rfl
theorem same_inFormat (a : Args F) : Same a (inFormat w a) := by
  unfold inFormat
  split
  · split <;> constructor <;> rfl
  · constructor <;> rfl
theorem same_outFormat (a : Args F) : Same a (outFormat w a) := by
  unfold outFormat
  split
  · split <;> constructor <;> rfl
  · constructor <;> rfl

/-- What is left of the options after the checks. -/
structure Ready (w : World F Cart Err) (a b : Args F) : Prop where
  same : Same a b
  given : a.input.isSome = true
  input : b.input = if a.deleteCart ∨ a.renameCart then none else a.input
  additional : b.additional = moreInputs a
  outputs : outputsOf w b = wanted w a
  inputFormat : ∀ i, b.input = some i → b.inputFormat = a.inputFormat.or (w.known i)
  exporting : b.list = false → b.dump = false → b.format.any w.isExport = (mainOutput a).any fun o => w.isExport (mainFormat w a o)

theorem takeOutput_input (a : Args F) : (takeOutput a).input = a.input := by unfold takeOutput; split <;> rfl
theorem takeOutput_format (a : Args F) : (takeOutput a).format = a.format := by unfold takeOutput; split <;> rfl
theorem takeOutput_inputFormat (a : Args F) : (takeOutput a).inputFormat = a.inputFormat := by unfold takeOutput; split <;> rfl

theorem inFormat_input (v : Args F) : (inFormat w v).input = v.input := by
  unfold inFormat
  split
  · split <;> rfl
  · rfl
theorem inFormat_additional (v : Args F) : (inFormat w v).additional = v.additional := by
  unfold inFormat
  split
  · split <;> rfl
  · rfl
theorem inFormat_output (v : Args F) : (inFormat w v).output = v.output := by
  unfold inFormat
  split
  · split <;> rfl
  · rfl
theorem outFormat_input (v : Args F) : (outFormat w v).input = v.input := by
  unfold outFormat
  split
  · split <;> rfl
  · rfl
theorem outFormat_inputFormat (v : Args F) : (outFormat w v).inputFormat = v.inputFormat := by
  unfold outFormat
  split
  · split <;> rfl
  · rfl
theorem outFormat_additional (v : Args F) : (outFormat w v).additional = v.additional := by
  unfold outFormat
  split
  · split <;> rfl
  · rfl
theorem outFormat_output (v : Args F) : (outFormat w v).output = v.output := by
  unfold outFormat
  split
  · split <;> rfl
  · rfl

theorem setup_ready (h : setup w a = some b) : Ready w a b := by
  unfold setup at h
  by_cases h1 : a.inPlace ∧ (takeOutput a).output.isSome
  · rw [if_pos h1] at h; simp at h
  rw [if_neg h1] at h
  have hs := same_takeOutput a
  have hi := takeOutput_input a
  have hf := takeOutput_format a
  have hif := takeOutput_inputFormat a
  have ho := takeOutput_output a
  have ha := takeOutput_additional a
  generalize takeOutput a = t at *
  simp only at h
  by_cases h2 : (useInput t).input.isNone
  · rw [if_pos h2] at h; simp at h
  rw [if_neg h2] at h
  by_cases h3 : ((useInput t).deleteCart ∨ (useInput t).renameCart) ∧ (useInput t).output.isSome
  · rw [if_pos h3] at h; simp at h
  rw [if_neg h3] at h
  by_cases h4 : rejected (onlyOutput (useInput t)) = true
  · rw [if_pos h4] at h; simp at h
  rw [if_neg h4] at h
  simp only [Option.some.injEq] at h
  have hsame : Same a b := by
    rw [← h]
    exact (((hs.trans (same_useInput t)).trans (same_onlyOutput _)).trans (same_inFormat _)).trans (same_outFormat _)
  have hu1 : (useInput t).input = a.input := by unfold useInput; split <;> simp [hi]
  have hu2 : (useInput t).inputFormat = a.inputFormat := by unfold useInput; split <;> simp [hif]
  have hu3 : (useInput t).additional = moreInputs a := by unfold useInput; split <;> simp [ha]
  have hu4 : (useInput t).output = if a.inPlace then a.input else a.output.or a.additional.getLast? := by
    unfold useInput; rw [hs.inPlace]; split <;> simp [hi, ho]
  have hu5 : (useInput t).format = a.format.or (if a.inPlace then a.inputFormat else none) := by
    unfold useInput; rw [hs.inPlace]
    cases hp : a.inPlace <;> cases hq : a.format <;> cases hr : a.inputFormat <;> simp [hf, hif, hq, hr]
  have hus := hs.trans (same_useInput t)
  generalize useInput t = u at *
  rw [hus.deleteCart, hus.renameCart] at h3
  have hv1 : (onlyOutput u).input = if a.deleteCart ∨ a.renameCart then none else a.input := by
    unfold onlyOutput; rw [hus.deleteCart, hus.renameCart]; split <;> simp [hu1]
  have hv2 : (onlyOutput u).inputFormat = a.inputFormat := by unfold onlyOutput; split <;> simp [hu2]
  have hv3 : (onlyOutput u).additional = moreInputs a := by unfold onlyOutput; split <;> simp [hu3]
  have hv4 : (onlyOutput u).output = mainOutput a := by
    unfold onlyOutput mainOutput; rw [hus.deleteCart, hus.renameCart]
    by_cases hd : a.deleteCart ∨ a.renameCart
    · rw [if_pos hd, if_pos (Or.inr hd)]; exact hu1
    · rw [if_neg hd, hu4]; simp [hd]
  have hv5 : (onlyOutput u).format = a.format.or (if a.inPlace then a.inputFormat else none) := by
    unfold onlyOutput; split <;> simp [hu5]
  have hvs := hus.trans (same_onlyOutput u)
  have hgiven : a.input.isSome = true := by rw [← hu1]; cases hx : u.input <;> simp [hx] at h2 ⊢
  -- in place, the output is the input
  have hinp : a.inPlace = true → (onlyOutput u).input = mainOutput a := by
    intro hp
    rw [hp, if_pos rfl] at hu4
    rw [hv1]
    by_cases hd : a.deleteCart = true ∨ a.renameCart = true
    · exact absurd ⟨hd, by rw [hu4]; exact hgiven⟩ h3
    · rw [if_neg hd]; simp [mainOutput, hp]
  generalize onlyOutput u = v at *
  have hw1 : (inFormat w v).input = v.input := inFormat_input v
  have hw2 : ∀ i, v.input = some i → (inFormat w v).inputFormat = a.inputFormat.or (w.known i) := by
    intro i hi'
    unfold inFormat
    rw [hi']
    cases hr : a.inputFormat <;> simp [hv2, hr]
  have hw3 : (inFormat w v).additional = moreInputs a := (inFormat_additional v).trans hv3
  have hw4 : (inFormat w v).output = mainOutput a := (inFormat_output v).trans hv4
  have hw5 : ∀ o, mainOutput a = some o → ((inFormat w v).format.or (w.known o)) = v.format.or (w.known o) := by
    intro o ho'
    unfold inFormat
    cases hx : v.input with
    | none => rfl
    | some i =>
      simp only
      split
      · simp only [hvs.inPlace]
        cases hp : a.inPlace
        · simp
        · have := hinp hp
          rw [hx, ho'] at this
          injection this with this
          subst this
          cases hq : v.format <;> simp
      · rfl
  have hw6 : mainOutput a = none → (inFormat w v).format = v.format := by
    intro hn
    unfold inFormat
    cases hx : v.input with
    | none => rfl
    | some i =>
      simp only
      split
      · cases hp : a.inPlace
        · simp [hvs.inPlace, hp]
        · have := hinp hp
          rw [hx, hn] at this
          simp at this
      · rfl
  have hb1 : b.input = v.input := by rw [← h, outFormat_input]; exact hw1
  have hb2 : b.inputFormat = (inFormat w v).inputFormat := by rw [← h]; exact outFormat_inputFormat _
  have hb3 : b.additional = moreInputs a := by rw [← h, outFormat_additional]; exact hw3
  have hb4 : b.output = mainOutput a := by rw [← h, outFormat_output]; exact hw4
  have hb5 : ∀ o, mainOutput a = some o → b.format = some (mainFormat w a o) := by
    intro o ho'
    have e := hw5 o ho'
    rw [hv5] at e
    unfold mainFormat
    rw [← e, ← h]
    unfold outFormat
    rw [hw4, ho']
    simp only
    cases hq : (inFormat w v).format <;> simp [World.outFormat, hq]
  have hb6 : mainOutput a = none → b.format = v.format := by
    intro hn
    rw [← h, ← hw6 hn]
    unfold outFormat
    rw [hw4, hn]
  refine ⟨hsame, hgiven, hb1.trans hv1, hb3, ?_, ?_, ?_⟩
  · unfold outputsOf wanted
    rw [hb4, hsame.extraOutput, hsame.extract]
    congr 1
    congr 1
    · cases ho' : mainOutput a with
      | none => simp
      | some o => rw [hb5 o ho']; simp
    · apply List.map_congr_left
      intro x _
      cases x.2 <;> simp [World.outFormat]
  · intro i hi'
    rw [hb2]
    exact hw2 i (hb1 ▸ hi')
  · intro hl hd
    cases ho' : mainOutput a with
    | some o => rw [hb5 o ho']; simp
    | none =>
      rw [hb6 ho']
      simp only [Option.any_none]
      have h5 := h4
      unfold rejected at h5
      rw [hsame.dump] at hd
      cases hq : v.format with
      | none => rfl
      | some f =>
        exfalso
        apply h5
        simp [hq, hv4, ho', hvs.dump, hd]

theorem processCode_same (h : Same a b) (c : Cart) : processCode w b c = processCode w a c := by
  unfold processCode
  simp only [h.lint, h.minify, h.minifyOther, h.unminify, h.count, h.inputCount, h.noCountTokenize, h.syntaxScript, h.noLintFail]

/-- A cart that ends the run. -/
def stops (w : World F Cart Err) (a : Args F) (c : Cart) : Bool :=
  !(processCode w a c).2.1.isEmpty && (!(processCode w a c).1 || (a.lint && !a.noLintFail))

/-- What the linter and the scripts say. -/
def complaints (w : World F Cart Err) (a : Args F) (c : Cart) : List Err :=
  (if a.lint then w.warnings c else []) ++ (if a.syntaxScript then w.scripted c else [])

theorem processCode_parses (hp : Parses a) (c : Cart) : processCode w a c =
    if (w.parse true c).isEmpty then
      if (complaints w a c).isEmpty || a.noLintFail then (true, complaints w a c ++ (if Shrinks a then (w.shrink c).2 else []), result w a c)
      else (true, complaints w a c, c)
    else (false, w.parse true c, c) := by
  have h1 : (a.lint || (a.minify || a.minifyOther) || a.unminify || a.syntaxScript) = true := by
    simpa [Parses, Shrinks, or_assoc] using hp
  have h2 : (!a.lint && !(a.minify || a.minifyOther) && !a.unminify && !((a.count || a.inputCount) && !a.noCountTokenize) && !a.syntaxScript) = false := by
    revert h1
    cases a.lint <;> cases a.minify <;> cases a.minifyOther <;> cases a.unminify <;> cases a.syntaxScript <;> simp
  unfold processCode
  simp only [h1, h2, Bool.false_eq_true, if_false]
  cases hw : w.parse true c with
  | cons x xs => simp
  | nil =>
    simp only [List.isEmpty_nil, Bool.not_true, Bool.false_eq_true, if_false, if_true]
    congr 1
    have h3 : ((a.minify || a.minifyOther) = true) = Shrinks a := by simp [Shrinks]
    simp only [h3, result, complaints]
    by_cases hsr : Shrinks a
    · simp [hsr]
    · simp [hsr]

theorem processCode_counts (hp : ¬ Parses a) (c : Cart) : processCode w a c =
    if (a.count || a.inputCount) && !a.noCountTokenize && !(w.parse false c).isEmpty then (false, w.parse false c, c) else (true, [], c) := by
  have h : a.lint = false ∧ a.minify = false ∧ a.minifyOther = false ∧ a.unminify = false ∧ a.syntaxScript = false := by
    simpa [Parses, Shrinks, and_assoc] using hp
  obtain ⟨h1, h2, h3, h4, h5⟩ := h
  unfold processCode
  simp only [h1, h2, h3, h4, h5]
  cases hq : (a.count || a.inputCount) && !a.noCountTokenize
  · simp
  · cases hw : w.parse false c <;> simp [hw]

theorem result_plain (hp : ¬ Parses a) (c : Cart) : result w a c = c := by
  have h : a.lint = false ∧ a.minify = false ∧ a.minifyOther = false ∧ a.unminify = false ∧ a.syntaxScript = false := by
    simpa [Parses, Shrinks, and_assoc] using hp
  simp [result, Shrinks, h]

theorem stops_iff (c : Cart) : stops w a c = false ↔ Readable w a c ∧ Quiet w a c := by
  unfold stops
  by_cases hp : Parses a
  · rw [processCode_parses hp]
    cases hw : w.parse true c with
    | cons x xs => simp [Readable, hp, hw]
    | nil =>
      simp only [List.isEmpty_nil, if_true, Readable, hp, hw, true_and, not_true_eq_false, false_implies, implies_true, Quiet]
      cases hl : a.lint
      · split <;> simp
      · cases hn : a.noLintFail
        · simp only [Bool.or_false, if_true, true_implies, Bool.not_false, Bool.and_true, complaints, hl]
          cases hws : w.warnings c with
          | cons x xs => simp
          | nil =>
            cases hss : a.syntaxScript
            · by_cases hsr : Shrinks a <;> simp [hsr]
            · cases hsc : w.scripted c with
              | cons x xs => simp
              | nil => by_cases hsr : Shrinks a <;> simp [hsr]
        · simp
  · have hl : a.lint = false := by
      cases hl : a.lint
      · rfl
      · exact absurd (Or.inl hl) hp
    rw [processCode_counts hp]
    simp only [Readable, hp, hl, Quiet, false_implies, true_and, not_false_eq_true, true_implies, Bool.false_eq_true, and_true]
    cases hw : w.parse false c <;> cases a.count <;> cases a.inputCount <;> cases a.noCountTokenize <;> simp

theorem not_readable (c : Cart) (h : (processCode w a c).1 = true) : Readable w a c := by
  by_cases hp : Parses a
  · rw [processCode_parses hp] at h
    cases hw : w.parse true c with
    | cons x xs => simp [hw] at h
    | nil => exact ⟨fun _ => hw, fun k => absurd hp k⟩
  · rw [processCode_counts hp] at h
    refine ⟨fun k => absurd k hp, fun _ k1 k2 => ?_⟩
    cases hw : w.parse false c with
    | nil => rfl
    | cons x xs =>
      exfalso
      have : (a.count || a.inputCount) = true := by simpa using k1
      simp [hw, this, k2] at h

theorem readable_ok (c : Cart) (h : Readable w a c) : (processCode w a c).1 = true := by
  by_cases hp : Parses a
  · rw [processCode_parses hp, h.1 hp]
    simp only [List.isEmpty_nil, if_true]
    split <;> rfl
  · rw [processCode_counts hp]
    have := h.2 hp
    split
    · rename_i k
      exfalso
      simp only [Bool.and_eq_true, Bool.or_eq_true, Bool.not_eq_true'] at k
      simp [this k.1.1 k.1.2] at k
    · rfl

theorem processed (c : Cart) (h1 : Readable w a c) (h2 : Quiet w a c) (h3 : Approved w a c ∨ a.noLintFail = true) : (processCode w a c).2.2 = result w a c := by
  by_cases hp : Parses a
  · rw [processCode_parses hp, h1.1 hp]
    simp only [List.isEmpty_nil, if_true]
    split
    · rfl
    · rename_i k
      exfalso
      apply k
      rcases h3 with h3 | h3
      · cases hn : a.noLintFail
        · have e1 : (if a.lint = true then w.warnings c else []) = [] := by
            split
            · rename_i hl; exact (h2 hl hn).1
            · rfl
          have e2 : (if a.syntaxScript = true then w.scripted c else []) = [] := by
            split
            · rename_i hl; exact h3 hl
            · rfl
          rw [complaints, e1, e2]; rfl
        · simp
      · simp [h3]
  · rw [processCode_counts hp, result_plain hp]
    split <;> rfl

theorem unprocessed (c : Cart) (h1 : Readable w a c) (h3 : ¬ Approved w a c) (h4 : a.noLintFail = false) : (processCode w a c).2.2 = c := by
  have hs : a.syntaxScript = true ∧ w.scripted c ≠ [] := by simpa [Approved] using h3
  have hp : Parses a := Or.inr (Or.inr (Or.inr hs.1))
  rw [processCode_parses hp, h1.1 hp]
  simp only [List.isEmpty_nil, if_true]
  rw [if_neg]
  simp [h4, hs.1, hs.2, complaints]

theorem processAll_inr {cs rs : List Cart} : processAll w a cs = .inr rs ↔
    (∀ c ∈ cs, stops w a (w.prepare c) = false) ∧ rs = cs.map fun c => (processCode w a (w.prepare c)).2.2 := by
  induction cs generalizing rs with
  | nil =>
    unfold processAll
    constructor
    · intro h; injection h with h; exact ⟨fun c hc => by simp at hc, by rw [← h]; rfl⟩
    · rintro ⟨_, h⟩; rw [h]; rfl
  | cons c cs ih =>
    unfold processAll
    simp only
    by_cases h : stops w a (w.prepare c) = true
    · have h' := h
      unfold stops at h'
      rw [if_pos h']
      simp [h]
    · have h' := h
      unfold stops at h'
      rw [if_neg h']
      simp only [Bool.not_eq_true] at h
      cases hr : processAll w a cs with
      | inl ok =>
        simp only [reduceCtorEq, false_iff]
        rintro ⟨k, _⟩
        have := (ih (rs := cs.map fun c => (processCode w a (w.prepare c)).2.2)).2 ⟨fun x hx => k x (List.mem_cons_of_mem _ hx), rfl⟩
        rw [hr] at this
        simp at this
      | inr rs' =>
        have := ih.1 hr
        simp only [Sum.inr.injEq, List.mem_cons, forall_eq_or_imp, List.map_cons]
        constructor
        · intro e; exact ⟨⟨h, this.1⟩, by rw [← e, this.2]⟩
        · intro e; rw [e.2, this.2]

theorem processAll_inl {cs : List Cart} {ok : Bool} (h : processAll w a cs = .inl ok) :
    ∃ c ∈ cs, stops w a (w.prepare c) = true ∧ (processCode w a (w.prepare c)).1 = ok := by
  induction cs with
  | nil => simp [processAll] at h
  | cons c cs ih =>
    unfold processAll at h
    simp only at h
    by_cases k : stops w a (w.prepare c) = true
    · have h' := k
      unfold stops at h'
      rw [if_pos h'] at h
      injection h with h
      exact ⟨c, List.mem_cons_self, k, h⟩
    · have h' := k
      unfold stops at h'
      rw [if_neg h'] at h
      cases hr : processAll w a cs with
      | inl ok' =>
        rw [hr] at h
        simp only at h
        obtain ⟨x, hx, e⟩ := ih (hr.trans h)
        exact ⟨x, List.mem_cons_of_mem _ hx, e⟩
      | inr rs => rw [hr] at h; simp at h

theorem processAll_same (h : Same a b) (cs : List Cart) : processAll w b cs = processAll w a cs := by
  induction cs with
  | nil => rfl
  | cons c cs ih =>
    unfold processAll
    simp only [processCode_same h, h.lint, h.noLintFail, ih]

/-- What `writeOutputs` does. -/
theorem writes_spec (carts : Option (List Cart)) (os : List (Path × F)) :
    ((writeOutputs w carts os).exit = .ok ∧ (writeOutputs w carts os).writes = os.map (fun o => (o.1, o.2, carts))) ∨
    ((writeOutputs w carts os).exit = .fail ∧ ∃ done o rest, os = done ++ o :: rest ∧ (writeOutputs w carts os).writes = done.map (fun o => (o.1, o.2, carts)) ∧
      ¬ ((w.isExport o.2 = true → w.ready o.1 o.2 = true) ∧ w.canWrite o.1 o.2 = true)) := by
  induction os with
  | nil => left; exact ⟨rfl, rfl⟩
  | cons o os ih =>
    unfold writeOutputs
    by_cases h1 : (w.isExport o.2 && !w.ready o.1 o.2) = true
    · rw [if_pos h1]
      refine Or.inr ⟨rfl, [], o, os, rfl, rfl, ?_⟩
      simp only [Bool.and_eq_true, Bool.not_eq_true'] at h1
      rintro ⟨k, _⟩
      rw [k h1.1] at h1
      simp at h1
    · rw [if_neg h1]
      by_cases h2 : (!w.canWrite o.1 o.2) = true
      · rw [if_pos h2]
        refine Or.inr ⟨rfl, [], o, os, rfl, rfl, ?_⟩
        rintro ⟨_, k⟩
        simp [k] at h2
      · rw [if_neg h2]
        rcases ih with ⟨e1, e2⟩ | ⟨e1, done, x, rest, e2, e3, e4⟩
        · exact Or.inl ⟨e1, by simp [e2]⟩
        · exact Or.inr ⟨e1, o :: done, x, rest, by simp [e2], by simp [e3], e4⟩

theorem mapM_some {A B : Type} (f : A → Option B) (l : List A) (r : List B) : l.mapM f = some r ↔ l.map f = r.map some := by
  induction l generalizing r with
  | nil => cases r <;> simp
  | cons x l ih =>
    rw [List.mapM_cons]
    cases hx : f x with
    | none => cases r <;> simp [hx]
    | some y =>
      cases hl : l.mapM f with
      | none =>
        cases r with
        | nil => simp
        | cons z r =>
          have : ¬ (l.map f = r.map some) := fun k => by rw [(ih r).2 k] at hl; simp at hl
          simp [this]
      | some ys =>
        cases r with
        | nil => simp
        | cons z r =>
          have := ih r
          rw [hl] at this
          simp only [Option.some.injEq] at this
          simp [hx, ← this]

theorem reads_unique {cs ds : List Cart} (h : Reads w a cs) (k : Reads w a ds) : cs = ds := by
  obtain ⟨i, m, e, r, h1, h2, h3, h4⟩ := h
  obtain ⟨i', m', e', r', k1, k2, k3, k4⟩ := k
  rw [h1] at k1
  injection k1 with k1
  subst k1
  rw [h2] at k2
  injection k2 with k2
  injection k2 with k5 k6
  subst k5 k6
  have : r = r' := by
    have hh : some (some r) = some (some r') := by
      have x1 := (mapM_some (fun p => (w.read p (some ((w.known p).getD w.src)) false).map (·.1)) (moreInputs a) r).2 h3
      have x2 := (mapM_some (fun p => (w.read p (some ((w.known p).getD w.src)) false).map (·.1)) (moreInputs a) r').2 k3
      rw [← x1, ← x2]
    simpa using hh
  rw [h4, k4, this]

/-- What happens after the carts have been read. -/
def finish (w : World F Cart Err) (a : Args F) (carts : List Cart) : Result F Cart :=
  match processAll w a carts with
  | .inl ok => ⟨[], if ok then .warn else .err⟩
  | .inr rs => writeOutputs w (some rs) (wanted w a)

theorem run_read (h : setup w a = some b) (hd : a.deleteCart = false) (hr : a.renameCart = false) (hl : a.list = false) (hdu : a.dump = false) :
    run w a = ⟨[], .fail⟩ ∨ ∃ carts, Reads w a carts ∧ run w a = finish w a carts := by
  have r := setup_ready h
  have hv : ¬ (a.version = true ∧ a.input.isNone = true) := by
    rintro ⟨_, k⟩
    have := r.given
    cases hx : a.input <;> simp [hx] at this k
  unfold run
  rw [if_neg hv, h]
  simp only
  have hin := r.input
  rw [if_neg (by simp [hd, hr])] at hin
  obtain ⟨i, hi⟩ := Option.isSome_iff_exists.1 r.given
  rw [hin, hi]
  simp only
  rw [if_neg (by simp [r.same.list, r.same.dump, hl, hdu]), r.inputFormat i (hin.trans hi),
    r.exporting (r.same.list.trans hl) (r.same.dump.trans hdu)]
  cases hx : w.read i (a.inputFormat.or (w.known i)) ((mainOutput a).any fun o => w.isExport (mainFormat w a o)) with
  | none => exact Or.inl rfl
  | some me =>
    obtain ⟨m, e⟩ := me
    simp only [r.additional]
    split
    · exact Or.inl rfl
    · cases hm : (moreInputs a).mapM fun p => (w.read p (some (w.outFormat p)) false).map (·.1) with
      | none => exact Or.inl rfl
      | some more =>
        right
        refine ⟨m :: e ++ more, ⟨i, m, e, more, hi, hx, (mapM_some _ _ _).1 hm, rfl⟩, ?_⟩
        unfold finish
        simp only [processAll_same r.same, r.outputs]
        cases processAll w a (m :: e ++ more) <;> rfl

theorem run_none (h : setup w a = none) (hi : a.input.isSome = true) : run w a = ⟨[], .fail⟩ := by
  have hv : ¬ (a.version = true ∧ a.input.isNone = true) := by
    rintro ⟨_, k⟩
    cases hx : a.input <;> simp [hx] at hi k
  unfold run
  rw [if_neg hv, h]

/-- A run that processes a cart (and does not just list, dump or edit an export). -/
structure Processes (a : Args F) : Prop where
  input : a.input.isSome = true
  noDelete : a.deleteCart = false
  noRename : a.renameCart = false
  noList : a.list = false
  noDump : a.dump = false

theorem run_processes (h : Processes a) : run w a = ⟨[], .fail⟩ ∨ ∃ carts, Reads w a carts ∧ run w a = finish w a carts := by
  cases hs : setup w a with
  | none => exact Or.inl (run_none hs h.input)
  | some b => exact run_read hs h.noDelete h.noRename h.noList h.noDump

/-- **C88 (success).** A run that reports success has read all carts without errors (and without warnings that should end it), and has written every output that was asked
for, in order and in the format that was asked for, with all carts, changed as asked for (if no script complains). -/
theorem C88_success (h : Processes a) (hok : (run w a).exit = .ok) :
    ∃ carts, Reads w a carts ∧ (∀ c ∈ carts, Readable w a (w.prepare c) ∧ Quiet w a (w.prepare c)) ∧
      ((∀ c ∈ carts, Approved w a (w.prepare c)) ∨ a.noLintFail = true →
        (run w a).writes = (wanted w a).map fun o => (o.1, o.2, some (carts.map fun c => result w a (w.prepare c)))) := by
  rcases run_processes (w := w) h with e | ⟨carts, hr, e⟩
  · rw [e] at hok; simp at hok
  · refine ⟨carts, hr, ?_⟩
    rw [e] at hok ⊢
    unfold finish at hok ⊢
    cases hp : processAll w a carts with
    | inl ok => rw [hp] at hok; cases ok <;> simp at hok
    | inr rs =>
      rw [hp] at hok
      simp only at hok ⊢
      obtain ⟨h1, h2⟩ := processAll_inr.1 hp
      have h1' : ∀ c ∈ carts, Readable w a (w.prepare c) ∧ Quiet w a (w.prepare c) := fun c hc => (stops_iff _).1 (h1 c hc)
      refine ⟨h1', ?_⟩
      intro happ
      have hrs : rs = carts.map fun c => result w a (w.prepare c) := by
        rw [h2]
        apply List.map_congr_left
        intro c hc
        exact processed _ (h1' c hc).1 (h1' c hc).2 (happ.imp_left fun k => k c hc)
      rcases writes_spec (w := w) (some rs) (wanted w a) with ⟨_, k⟩ | ⟨k, _⟩
      · rw [k, hrs]
      · rw [k] at hok; simp at hok

/-- **C88 (nothing is written on errors or warnings).** If a run ends with errors or warnings, it has written nothing; and it has a reason. -/
theorem C88_nothing (h : Processes a) (he : (run w a).exit = .err ∨ (run w a).exit = .warn) :
    (run w a).writes = [] ∧ ∃ carts c, Reads w a carts ∧ c ∈ carts ∧
      ((run w a).exit = .err → ¬ Readable w a (w.prepare c)) ∧ ((run w a).exit = .warn → a.lint = true ∧ a.noLintFail = false ∧ ¬ Quiet w a (w.prepare c)) := by
  rcases run_processes (w := w) h with e | ⟨carts, hr, e⟩
  · rw [e] at he; simp at he
  · rw [e] at he ⊢
    unfold finish at he ⊢
    cases hp : processAll w a carts with
    | inl ok =>
      refine ⟨rfl, carts, ?_⟩
      obtain ⟨c, hc, h1, h2⟩ := processAll_inl hp
      refine ⟨c, hr, hc, ?_, ?_⟩
      · intro k
        cases ok
        · intro kr
          rw [readable_ok _ kr] at h2
          simp at h2
        · simp at k
      · intro k
        cases ok
        · simp at k
        · have hrd := not_readable _ h2
          have hq : ¬ Quiet w a (w.prepare c) := fun q => by rw [(stops_iff _).2 ⟨hrd, q⟩] at h1; simp at h1
          unfold stops at h1
          rw [h2] at h1
          simp only [Bool.not_true, Bool.false_or, Bool.and_eq_true, Bool.not_eq_true'] at h1
          exact ⟨h1.2.1, h1.2.2, hq⟩
    | inr rs =>
      rw [hp] at he
      simp only at he
      rcases writes_spec (w := w) (some rs) (wanted w a) with ⟨k, _⟩ | ⟨k, _⟩ <;> rw [k] at he <;> simp at he

/-- **C88 (errors are fatal).** If any of the carts has errors, or warnings that should end the run, nothing is written and success is not reported. -/
theorem C88_errors (h : Processes a) {carts : List Cart} (hr : Reads w a carts) {c : Cart} (hc : c ∈ carts)
    (hbad : ¬ Readable w a (w.prepare c) ∨ ¬ Quiet w a (w.prepare c)) : (run w a).writes = [] ∧ (run w a).exit ≠ .ok := by
  rcases run_processes (w := w) h with e | ⟨carts', hr', e⟩
  · rw [e]; simp
  · rw [← reads_unique hr hr'] at e
    rw [e]
    unfold finish
    cases hp : processAll w a carts with
    | inl ok => cases ok <;> simp
    | inr rs =>
      have := (stops_iff _).1 ((processAll_inr.1 hp).1 c hc)
      rcases hbad with k | k
      · exact absurd this.1 k
      · exact absurd this.2 k

/-- **C88 (failure).** If a run fails, it has written only outputs that come before one that cannot be written. -/
theorem C88_failure (h : Processes a) (hf : (run w a).exit = .fail) :
    (run w a).writes = [] ∨ ∃ carts done o rest, wanted w a = done ++ o :: rest ∧ (run w a).writes = done.map (fun o => (o.1, o.2, some carts)) ∧
      ¬ ((w.isExport o.2 = true → w.ready o.1 o.2 = true) ∧ w.canWrite o.1 o.2 = true) := by
  rcases run_processes (w := w) h with e | ⟨carts, hr, e⟩
  · rw [e]; simp
  · rw [e] at hf ⊢
    unfold finish at hf ⊢
    cases hp : processAll w a carts with
    | inl ok => exact Or.inl rfl
    | inr rs =>
      rw [hp] at hf
      simp only at hf ⊢
      rcases writes_spec (w := w) (some rs) (wanted w a) with ⟨k, _⟩ | ⟨_, done, o, rest, k⟩
      · rw [k] at hf; simp at hf
      · exact Or.inr ⟨rs, done, o, rest, k⟩

/-- **C88 (it succeeds).** If the options are accepted, all carts can be read and have no errors (or warnings that should end the run), and all outputs can be written, the
run succeeds. -/
theorem C88_succeeds (h : Processes a) (hs : (setup w a).isSome = true) {carts : List Cart} (hr : Reads w a carts)
    (hx : moreInputs a ≠ [] → (mainOutput a).any (fun o => w.isExport (mainFormat w a o)) = true)
    (hc : ∀ c ∈ carts, Readable w a (w.prepare c) ∧ Quiet w a (w.prepare c))
    (hw : ∀ o ∈ wanted w a, (w.isExport o.2 = true → w.ready o.1 o.2 = true) ∧ w.canWrite o.1 o.2 = true) : (run w a).exit = .ok := by
  have hfin : run w a = finish w a carts := by
    obtain ⟨b, hb⟩ := Option.isSome_iff_exists.1 hs
    have r := setup_ready hb
    obtain ⟨i, m, e, more, h1, h2, h3, h4⟩ := hr
    have hv : ¬ (a.version = true ∧ a.input.isNone = true) := by rw [h1]; simp
    unfold run
    rw [if_neg hv, hb]
    have hin := r.input
    rw [if_neg (by simp [h.noDelete, h.noRename])] at hin
    simp only [hin, h1]
    rw [if_neg (by simp [r.same.list, r.same.dump, h.noList, h.noDump]), r.inputFormat i (hin.trans h1),
      r.exporting (r.same.list.trans h.noList) (r.same.dump.trans h.noDump), h2]
    simp only [r.additional]
    rw [if_neg (fun k => k.2 (hx k.1)), show (moreInputs a).mapM (fun p => (w.read p (some (w.outFormat p)) false).map (·.1)) = some more from (mapM_some _ _ _).2 h3]
    unfold finish
    simp only [processAll_same r.same, r.outputs, h4]
    cases processAll w a (m :: e ++ more) <;> rfl
  rw [hfin]
  unfold finish
  rw [(processAll_inr).2 ⟨fun c k => (stops_iff _).2 (hc c k), rfl⟩]
  simp only
  rcases writes_spec (w := w) (some (carts.map fun c => (processCode w a (w.prepare c)).2.2)) (wanted w a) with ⟨k, _⟩ | ⟨_, done, o, rest, k1, _, k2⟩
  · exact k
  · exact absurd (hw o (by rw [k1]; simp)) k2

/-- **C88 (only what is asked for).** Nothing but the outputs that were asked for is ever written, in the format that was asked for. -/
theorem C88_only (h : Processes a) {x : Path × F × Option (List Cart)} (hx : x ∈ (run w a).writes) : (x.1, x.2.1) ∈ wanted w a := by
  have key : ∀ rs os, x ∈ (writeOutputs w (some rs) os).writes → (x.1, x.2.1) ∈ os := by
    intro rs os hm
    rcases writes_spec (w := w) (some rs) os with ⟨_, k⟩ | ⟨_, done, o, rest, k1, k2, _⟩
    · rw [k] at hm
      obtain ⟨y, hy, rfl⟩ := List.mem_map.1 hm
      exact hy
    · rw [k2] at hm
      obtain ⟨y, hy, rfl⟩ := List.mem_map.1 hm
      rw [k1]
      exact List.mem_append_left _ hy
  rcases run_processes (w := w) h with e | ⟨carts, hr, e⟩
  · rw [e] at hx; simp at hx
  · rw [e] at hx
    unfold finish at hx
    cases hp : processAll w a carts with
    | inl ok => rw [hp] at hx; simp at hx
    | inr rs => rw [hp] at hx; exact key _ _ hx

/-- **C88 (the input is safe).** Unless the cart is changed in place, the file of the input is not written if it was not given as an output, too. -/
theorem C88_input_safe (h : Processes a) (hp : a.inPlace = false) {i : Path} (h1 : a.output ≠ some i) (h2 : a.output = none → a.additional.getLast? ≠ some i)
    (h3 : ∀ x ∈ a.extraOutput, x.1 ≠ i) (h4 : i ∉ a.extract) : ∀ x ∈ (run w a).writes, x.1 ≠ i := by
  intro x hx e
  have := C88_only h hx
  rw [e] at this
  unfold wanted at this
  simp only [List.mem_append, List.mem_map, Option.mem_toList] at this
  rcases this with (⟨o, ho, k⟩ | ⟨y, hy, k⟩) | ⟨p, hp', k⟩
  · injection k with k _
    subst k
    unfold mainOutput at ho
    rw [if_neg (by simp [hp, h.noDelete, h.noRename])] at ho
    cases hq : a.output with
    | some q => rw [hq] at ho; exact h1 (hq.trans (by simpa using ho))
    | none => rw [hq] at ho; exact h2 hq (by simpa using ho)
  · injection k with k _
    exact h3 y hy k
  · injection k with k _
    exact h4 (k ▸ hp')

/-- **C88 (in place).** A cart that is changed in place (without further outputs) is only written to the file it came from: in the format that is given for the output, or
for the input, or that its name tells, or as source. -/
theorem C88_in_place (h : Processes a) (hp : a.inPlace = true) (he : a.extraOutput = []) (hx : a.extract = []) :
    ∀ x ∈ (run w a).writes, a.input = some x.1 ∧ some x.2.1 = ((a.format.or a.inputFormat).or (w.known x.1)).or (some w.src) := by
  intro x hx'
  have := C88_only h hx'
  unfold wanted at this
  rw [he, hx] at this
  simp only [List.map_nil, List.append_nil, List.mem_map, Option.mem_toList] at this
  obtain ⟨o, ho, k⟩ := this
  injection k with k1 k2
  subst k1
  unfold mainOutput at ho
  rw [if_pos (Or.inl hp)] at ho
  refine ⟨ho, ?_⟩
  rw [← k2]
  unfold mainFormat
  rw [if_pos hp]
  cases (a.format.or a.inputFormat).or (w.known x.1) <;> rfl

/-- **C88 (unchanged).** Without options that change the code, what is written are the carts as they were read (apart from the version and the like). -/
theorem C88_unchanged (h : Processes a) (hm : a.minify = false) (ho : a.minifyOther = false) (hu : a.unminify = false) (hok : (run w a).exit = .ok) :
    ∃ carts, Reads w a carts ∧ (run w a).writes = (wanted w a).map fun o => (o.1, o.2, some (carts.map w.prepare)) := by
  have hres : ∀ c, result w a c = c := by intro c; simp [result, Shrinks, hm, ho, hu]
  rcases run_processes (w := w) h with e | ⟨carts, hr, e⟩
  · rw [e] at hok; simp at hok
  · refine ⟨carts, hr, ?_⟩
    rw [e] at hok ⊢
    unfold finish at hok ⊢
    cases hp : processAll w a carts with
    | inl ok => rw [hp] at hok; cases ok <;> simp at hok
    | inr rs =>
      rw [hp] at hok
      simp only at hok ⊢
      obtain ⟨h1, h2⟩ := processAll_inr.1 hp
      have hrs : rs = carts.map w.prepare := by
        rw [h2]
        apply List.map_congr_left
        intro c hc
        have k := (stops_iff _).1 (h1 c hc)
        by_cases ha : Approved w a (w.prepare c) ∨ a.noLintFail = true
        · rw [processed _ k.1 k.2 ha, hres]
        · simp only [not_or, Bool.not_eq_true] at ha
          exact unprocessed _ k.1 ha.1 ha.2
      rcases writes_spec (w := w) (some rs) (wanted w a) with ⟨_, k⟩ | ⟨k, _⟩
      · rw [k, hrs]
      · rw [k] at hok; simp at hok

/-- **C88 (editing).** Deleting or renaming a cart of an export writes to that export (and to further outputs) only, and no cart. -/
theorem C88_edit (hd : a.deleteCart = true ∨ a.renameCart = true) (hi : a.input.isSome = true) (hok : (run w a).exit = .ok) :
    (run w a).writes = (wanted w a).map (fun o => (o.1, o.2, none)) ∧ mainOutput a = a.input := by
  refine ⟨?_, by unfold mainOutput; rw [if_pos (Or.inr hd)]⟩
  cases hs : setup w a with
  | none => rw [run_none hs hi] at hok; simp at hok
  | some b =>
    have r := setup_ready hs
    have hv : ¬ (a.version = true ∧ a.input.isNone = true) := by
      rintro ⟨_, k⟩
      cases hx : a.input <;> simp [hx] at hi k
    have e : run w a = writeOutputs w none (wanted w a) := by
      unfold run
      have hin := r.input
      rw [if_pos hd] at hin
      rw [if_neg hv, hs]
      simp only [hin, r.outputs]
    rw [e] at hok ⊢
    rcases writes_spec (w := w) none (wanted w a) with ⟨_, k⟩ | ⟨k, _⟩
    · exact k
    · rw [k] at hok; simp at hok

/-- **C88 (looking).** Listing or dumping what an input contains (into the folder of the dump) writes none of the outputs, whatever other options are given, and only succeeds if the input could be shown. -/
theorem C88_listing (hl : a.list = true ∨ a.dump = true) (hd : a.deleteCart = false) (hr : a.renameCart = false) :
    (run w a).writes = [] ∧ ∀ i, a.input = some i → (run w a).exit = .ok → w.show_ i (a.inputFormat.or (w.known i)) = true := by
  by_cases hv : a.version = true ∧ a.input.isNone = true
  · unfold run
    rw [if_pos hv]
    refine ⟨rfl, fun i hi => ?_⟩
    rw [hi] at hv; simp at hv
  cases hs : setup w a with
  | none => unfold run; rw [if_neg hv, hs]; simp
  | some b =>
    have r := setup_ready hs
    have hin := r.input
    rw [if_neg (by simp [hd, hr])] at hin
    obtain ⟨i, hi⟩ := Option.isSome_iff_exists.1 r.given
    unfold run
    rw [if_neg hv, hs]
    simp only [hin, hi]
    rw [if_pos (by rw [r.same.list, r.same.dump]; exact hl), r.inputFormat i (hin.trans hi)]
    refine ⟨rfl, fun j hj => ?_⟩
    cases hj
    cases w.show_ i (a.inputFormat.or (w.known i)) <;> simp

/-! ### Examples -/

/-- Carts are texts; `0` is an error of the tokenizer, `1` of the parser, `2` is linted, `3` a script complains about, minifying removes `9`s; formats are `0` source, `1` an
image and `2` exports; the last number of a path tells the format. -/
def demo : World Nat (List Nat) Nat where
  known p := p.getLast?.bind fun x => if x ≤ 2 then some x else none
  src := 0
  fs := 7
  isExport f := f == 2
  read p _ _ := if p.length ≤ 1 then none else some (p.dropLast, [])
  show_ _ _ := true
  prepare c := c
  parse full c := c.filter fun x => x == 0 || (full && x == 1)
  warnings c := c.filter (· == 2)
  scripted c := c.filter (· == 3)
  shrink c := (c.filter (· != 9), [])
  expand c := c ++ [8]
  ready _ _ := false
  canWrite p _ := p.length > 0

/-- Minifying a cart into two files. -/
def two : Args Nat := { input := some [5, 9, 5, 0], output := some [70, 1], minify := true, lint := true, extraOutput := [([71, 0], none)] }

example : Processes two := by constructor <;> rfl
example : run demo two = ⟨[([70, 1], 1, some [[5, 5]]), ([71, 0], 0, some [[5, 5]])], .ok⟩ := by decide
example : (setup demo two).isSome = true := by decide
example : Reads demo two [[5, 9, 5]] := ⟨[5, 9, 5, 0], [5, 9, 5], [], [], rfl, rfl, rfl, rfl⟩
-- an error, and a warning
example : run demo { two with input := some [5, 1, 5, 0] } = ⟨[], .err⟩ := by decide
example : run demo { two with input := some [5, 2, 5, 0] } = ⟨[], .warn⟩ := by decide
example : run demo { two with input := some [5, 2, 9, 0], noLintFail := true } = ⟨[([70, 1], 1, some [[5, 2]]), ([71, 0], 0, some [[5, 2]])], .ok⟩ := by decide
-- in place
example : run demo { input := some [5, 9, 1], inPlace := true, minify := true } = ⟨[([5, 9, 1], 1, some [[5]])], .ok⟩ := by decide
-- without options that change the code
example : run demo { input := some [5, 9, 0], output := some [70, 1], lint := true } = ⟨[([70, 1], 1, some [[5, 9]])], .ok⟩ := by decide
-- dumping
example : run demo { input := some [5, 9, 2], extraOutput := [([71, 0], none)], dump := true } = ⟨[], .ok⟩ := by decide
-- editing an export
example : run { demo with ready := fun _ _ => true } { input := some [5, 9, 2], deleteCart := true } = ⟨[([5, 9, 2], 2, none)], .ok⟩ := by decide

/-- **C88 (finding: scripts).** If a script complains and nothing is linted, the cart is written without being minified, and success is reported. -/
theorem C88_script_counterexample :
    let a : Args Nat := { input := some [5, 9, 3, 0], output := some [70, 1], minify := true, script := true, syntaxScript := true }
    Processes a ∧ run demo a = ⟨[([70, 1], 1, some [[5, 9, 3]])], .ok⟩ ∧ result demo a [5, 9, 3] = [5, 3] := by
  refine ⟨by constructor <;> rfl, by decide, by decide⟩

/-- **C88 (finding: late failure).** An output that can never be written (an export without the files of PICO-8) is only noticed after other outputs have been written. -/
theorem C88_late_counterexample :
    let a : Args Nat := { input := some [5, 9, 0], output := some [70, 1], minify := true, extraOutput := [([71, 2], none)] }
    Processes a ∧ run demo a = ⟨[([70, 1], 1, some [[5]])], .fail⟩ := by
  refine ⟨by constructor <;> rfl, by decide⟩

/-- **C88 (finding: in place).** A file whose name does not tell its format is read by its content, but overwritten as source. -/
theorem C88_in_place_counterexample :
    let a : Args Nat := { input := some [5, 9, 6], inPlace := true, minify := true }
    Processes a ∧ demo.known [5, 9, 6] = none ∧ run demo a = ⟨[([5, 9, 6], 0, some [[5]])], .ok⟩ := by
  refine ⟨by constructor <;> rfl, by decide, by decide⟩

/-- **C88 (finding: kept compression).** Minifying is rejected when the compressed code should be kept, but safe minifying is not. -/
theorem C88_keep_counterexample :
    let a : Args Nat := { input := some [5, 9, 0], output := some [70, 1], keepCompression := true }
    setup demo { a with minify := true } = none ∧ run demo { a with minifyOther := true } = ⟨[([70, 1], 1, some [[5]])], .ok⟩ := by
  exact ⟨by decide, by decide⟩

end Verif.Main
