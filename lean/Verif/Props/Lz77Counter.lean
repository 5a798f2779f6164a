import Verif.Props.Lz77
/-! Concrete codes on which the compressor fails (kernel evaluation of the whole match finder, of which some parts are first replaced by equal
ones that evaluate faster). -/
namespace Verif

theorem writeItems_none_of_zero {items : List Item} (h : ∃ c, Item.mat 0 c ∈ items) (w : BitWriter) (mtf : List Nat) :
    writeItems w mtf items = none := by
  obtain ⟨c, h⟩ := h
  induction items generalizing w mtf with
  | nil => simp at h
  | cons it its ih =>
    rcases List.mem_cons.mp h with e | e
    · subst e; simp [writeItems, writeItem, writeMatch]
    · unfold writeItems
      cases writeItem w mtf it with
      | none => rfl
      | some r => exact ih r.1 r.2 e

/-- `f n`, evaluating `n` first. -/
def forceNat {β : Type} (n : Nat) (f : Nat → β) : β := Nat.rec (f 0) (fun m _ => f (Nat.succ m)) n

theorem forceNat_eq {β : Type} (n : Nat) (f : Nat → β) : forceNat n f = f n := by cases n <;> rfl

/-- `f l`, evaluating the list first. -/
def forceList {β : Type} : List Nat → (List Nat → β) → β
  | [], f => f []
  | a :: l, f => forceNat a fun a => forceList l fun l => f (a :: l)

theorem forceList_eq {β : Type} (l : List Nat) (f : List Nat → β) : forceList l f = f l := by
  induction l generalizing f with
  | nil => rfl
  | cons a l ih => simp only [forceList, forceNat_eq, ih]

/-- `updateMtf`, faster to evaluate. -/
def updateMtfF (mtf : List Nat) (idx ch : Nat) : List Nat :=
  if Nat.blt idx mtf.length then ch :: mtf.eraseIdx idx else updateMtf mtf idx ch

theorem updateMtfF_eq (mtf : List Nat) (idx ch : Nat) : updateMtf mtf idx ch = updateMtfF mtf idx ch := by
  unfold updateMtfF
  split
  · rename_i h; exact updateMtf_eq _ _ _ (Nat.le_of_ble_eq_true h)
  · rfl

/-- `litItem`, faster to evaluate. -/
def litItemF (s : LitState) (x : Nat × Item) : LitState :=
  match x.2 with
  | .mat _ count =>
    let cost := (20 - (count : Int) * 8) / count
    (List.range count).foldl (fun s j => addLastCost s (x.1 + j) cost) s
  | .str item =>
    let ch := item.headD 0
    forceNat (s.mtf.idxOf ch) fun chI => forceList (updateMtfF s.mtf chI ch) fun mtf =>
      addLastCost { s with mtf := mtf } x.1 (mtfCost chI - 8)

theorem litItemF_eq : litItem = litItemF := by
  funext s x
  unfold litItem litItemF
  cases x.2 <;> simp only [forceNat_eq, forceList_eq, updateMtfF_eq]

/-- The witness: 100 characters, none NUL. -/
def badPlanCode : List Nat :=
  [1, 2, 3, 4, 5, 6, 7, 8] ++ List.replicate 30 9 ++ [255, 254, 253, 252, 251, 250, 249] ++ [1, 2, 3, 4, 5, 6, 7, 8] ++
    (List.range 17).map (fun k => if k < 6 then 240 - k else 60 - k) ++ List.replicate 30 9

theorem badPlan_idxs : litblockIdxs badPlanCode = some [53, 45] := by
  unfold litblockIdxs
  rw [litItemF_eq]
  decide +kernel

/-- `mtfAfter`, faster to evaluate. -/
def mtfAfterF (out : List (Nat × Item)) : List Nat :=
  out.foldl (fun mtf x => match x.2 with
    | .str [c] => forceNat (mtf.idxOf c) fun i => forceList (updateMtfF mtf i c) fun m => m
    | _ => mtf) initMtf

theorem mtfAfterF_eq : mtfAfter = mtfAfterF := by
  funext o
  unfold mtfAfter mtfAfterF
  simp only [forceNat_eq, forceList_eq, updateMtfF_eq]
  rfl

/-- `pxaMeasure`, faster to evaluate. -/
def pxaMeasureF (out : List (Nat × Item)) (ctxt : Option (List Nat)) : Item → Int × Option (List Nat)
  | .mat offset count => pxaMeasure out ctxt (.mat offset count)
  | .str s =>
    let mtf := match ctxt with | some m => m | none => mtfAfterF out
    let ch := s.headD 0
    forceList mtf fun mtf =>
    forceNat (mtf.idxOf ch) fun chI => forceList (updateMtfF mtf chI ch) fun mtf' => (mtfCost chI, some mtf')

theorem pxaMeasureF_eq : pxaMeasure = pxaMeasureF := by
  funext o c x
  cases x with
  | mat => rfl
  | str => cases c <;> simp only [pxaMeasureF, pxaMeasure, mtfAfterF_eq, forceNat_eq, forceList_eq, updateMtfF_eq]

theorem badPlan_items : ((getLz77 pxaOptParams badPlanCode [53, 45]).map
    fun l => l.any fun x => decide (x.2 = .mat 0 55)) = some true := by 
  unfold pxaOptParams
  rw [pxaMeasureF_eq]
  decide +kernel

/-- **C02/C01 are violated by the default mode.**  On this NUL-free 100-character code the block planner returns a block
that ends (45) before it starts (53).  The search steps back, refers to itself at distance 0, and the compressor fails
whatever the error settings (`assert a >= 0`, utils.py 2552). -/
theorem C02_block_counterexample : ∃ code items, (∀ c ∈ code, 0 < c ∧ c < 256) ∧ pxaItems false code = some items ∧
    ¬ Covers code 0 (items.map (·.2)) ∧ ∀ fail, compressFull true fail false false code = none := by
  have h := badPlan_items
  cases hi : getLz77 pxaOptParams badPlanCode [53, 45] with
  | none => simp [hi] at h
  | some items =>
    rw [hi] at h
    simp only [Option.map_some, Option.some.injEq, List.any_eq_true, decide_eq_true_eq] at h
    obtain ⟨x, hx, e⟩ := h
    have hp : pxaItems false badPlanCode = some items := by simp [pxaItems, badPlan_idxs, hi]
    have hmem : Item.mat 0 55 ∈ items.map (·.2) := List.mem_map.mpr ⟨x, hx, e⟩
    refine ⟨badPlanCode, items, by decide, hp, ?_, ?_⟩
    · intro hc
      have : ∀ {l : List Item} {i : Nat}, Covers badPlanCode i l → Item.mat 0 55 ∉ l := by
        intro l
        induction l with
        | nil => simp
        | cons y l ih =>
          intro i h hm
          rcases List.mem_cons.mp hm with e | e
          · subst e; have := h.1.1; omega
          · exact ih h.2 e
      exact this hc hmem
    · intro fail
      simp only [compressFull, Bool.or_true, if_true, Bool.false_eq_true, if_false, hp, compressNew]
      rw [writeItems_none_of_zero ⟨55, hmem⟩]

/-- The witness for the legacy format: six letters, 207 times `a`, `b`. -/
def runCode : List Nat := [100, 101, 102, 103, 104, 105] ++ List.replicate 207 97 ++ [98]

theorem runCode_items : ((oldItems inOldTable true runCode).map
    fun l => l.any fun x => decide (x.2 = .mat 1 1)) = some true := by decide +kernel

/-- **C06 is violated by the fast legacy mode.**  On this code the search emits a one-character back-reference and the
writer fails (`struct.error`: the byte would be negative). -/
theorem C06_fast_crash_counterexample : ∃ code, (∀ c ∈ code, 0 < c ∧ c < 256) ∧
    ∀ fail, compressFull true fail true true code = none := by
  refine ⟨runCode, by decide +kernel, fun fail => ?_⟩
  have h := runCode_items
  cases hi : oldItems inOldTable true runCode with
  | none => simp [hi] at h
  | some items =>
    rw [hi] at h
    simp only [Option.map_some, Option.some.injEq, List.any_eq_true, decide_eq_true_eq] at h
    obtain ⟨x, hx, e⟩ := h
    have hmem : Item.mat 1 1 ∈ items.map (·.2) := List.mem_map.mpr ⟨x, hx, e⟩
    simp only [compressFull, Bool.or_true, if_true, hi, compressOld, oldWriteItems_none hmem]

end Verif
