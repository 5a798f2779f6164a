import Verif.Props.PodFile
import Verif.Props.JsExport
/-
C39: the carts inside a pod export.
-/
namespace Verif.PodFile

open Verif.PodFormat (Content Name lit Shown Part Edit renamed)
open Verif.ExportSpec (Op Carts Has applyAll)
open Verif.Export (writeCart writeAll listCarts readCart find dictOf)
open Verif.JsExport (has_split not_has map_split nodup_split nodup_insert)

/-- A cart is a file with a name. -/
def asCart : Shown → Option (Name × List Nat)
  | (some name, .file data) => if name = [] then none else some (name, data)
  | _ => none

def cartsOf (l : List Shown) : Carts := l.filterMap asCart

/-- The other entries of the export. -/
def othersOf (l : List Shown) : List Shown := l.filter fun x => (asCart x).isNone

/-- A name that can be stored. -/
def CartName (n : Name) : Prop := n ≠ [] ∧ n.length ≤ 0x40 ∧ 0 ∉ n ∧ ∀ b ∈ n, b < 256

def RomOk (size : Nat) (rom : List Nat) : Prop := rom.length = size ∧ ∀ b ∈ rom, b < 256

/-- The export is what its bytes say, and has the carts, all of the same size, with different names. -/
def Represents (size : Nat) (m : State) (l : Carts) : Prop :=
  Valid m ∧ cartsOf (items m) = l ∧ (l.map (·.1)).Nodup ∧ ∀ c ∈ l, c.2.length = size

def OpOk (size : Nat) : Op → Prop
  | .insert name rom _ => CartName name ∧ RomOk size rom
  | .replace _ rom => RomOk size rom
  | .delete _ => True
  | .rename _ target => CartName target

theorem namedFiles_eq (k : Nat) (es : List Entry) :
    (namedFiles k es).map (fun x => (x.1, x.2.2)) = cartsOf (es.map fun e => (e.name, e.content)) := by
  induction es generalizing k with
  | nil => rfl
  | cons e es ih =>
    obtain ⟨hd, pos, ep, name, content⟩ := e
    unfold cartsOf at ih ⊢
    rw [List.map_cons, List.filterMap_cons]
    cases name with
    | none => simp only [namedFiles, asCart]; exact ih _
    | some n =>
      cases content with
      | file d =>
        simp only [namedFiles, asCart]
        by_cases hn : n = []
        · simp only [hn, if_true]; exact ih _
        · simp only [hn, if_false, List.map_cons, ih]
      | bmp => simp only [namedFiles, asCart]; exact ih _
      | pal => simp only [namedFiles, asCart]; exact ih _

theorem find_none {k : Nat} {es : List Entry} {n : Name} (h : ¬ Has (cartsOf (es.map fun e => (e.name, e.content))) n) :
    find (namedFiles k es) n = none := by
  unfold find
  rw [Option.map_eq_none_iff, List.find?_eq_none]
  intro x hx
  rw [← namedFiles_eq k] at h
  have := not_has.mp h (x.1, x.2.2) (List.mem_map.mpr ⟨x, hx, rfl⟩)
  simpa using this

theorem find_some {k : Nat} {es : List Entry} {n : Name} (h : Has (cartsOf (es.map fun e => (e.name, e.content))) n) :
    ∃ a e b d, es = a ++ e :: b ∧ e.name = some n ∧ e.content = .file d ∧ n ≠ [] ∧
      ¬ Has (cartsOf (a.map fun e => (e.name, e.content))) n ∧ find (namedFiles k es) n = some (k + a.length, d) := by
  induction es generalizing k with
  | nil => obtain ⟨r, hr⟩ := h; simp [cartsOf] at hr
  | cons e es ih =>
    have skip : namedFiles k (e :: es) = namedFiles (k + 1) es → asCart (e.name, e.content) = none →
        ∃ a e' b d, e :: es = a ++ e' :: b ∧ e'.name = some n ∧ e'.content = .file d ∧ n ≠ [] ∧
          ¬ Has (cartsOf (a.map fun e => (e.name, e.content))) n ∧ find (namedFiles k (e :: es)) n = some (k + a.length, d) := by
      intro h1 h2
      have h' : Has (cartsOf (es.map fun e => (e.name, e.content))) n := by
        simpa [cartsOf, h2] using h
      obtain ⟨a, e', b, d, rfl, k1, k2, k3, k4, k5⟩ := ih (k := k + 1) h'
      refine ⟨e :: a, e', b, d, rfl, k1, k2, k3, ?_, by rw [h1, k5]; simp; omega⟩
      simpa [cartsOf, h2] using k4
    obtain ⟨hd, pos, ep, name, content⟩ := e
    cases name with
    | none => exact skip rfl rfl
    | some nm =>
      cases content with
      | bmp => exact skip rfl rfl
      | pal => exact skip rfl rfl
      | file d =>
        by_cases hn : nm = []
        · exact skip (by simp [namedFiles, hn]) (by simp [asCart, hn])
        · by_cases hnm : nm = n
          · subst hnm
            refine ⟨[], _, es, d, rfl, rfl, rfl, hn, ?_, ?_⟩
            · rintro ⟨r, hr⟩; simp [cartsOf] at hr
            · simp [namedFiles, hn, find]
          · have h' : Has (cartsOf (es.map fun e => (e.name, e.content))) n := by
              obtain ⟨r, hr⟩ := h
              simp only [cartsOf, List.map_cons, List.filterMap_cons, asCart, hn, if_false, List.mem_cons, Prod.mk.injEq] at hr
              rcases hr with hr | hr
              · exact absurd hr.1.symm hnm
              · exact ⟨r, hr⟩
            obtain ⟨a, e', b, d', rfl, k1, k2, k3, k4, k5⟩ := ih (k := k + 1) h'
            refine ⟨_ :: a, e', b, d', rfl, k1, k2, k3, ?_, ?_⟩
            · rintro ⟨r, hr⟩
              simp only [cartsOf, List.map_cons, List.filterMap_cons, asCart, hn, if_false, List.mem_cons, Prod.mk.injEq] at hr
              rcases hr with hr | hr
              · exact absurd hr.1.symm hnm
              · exact k4 ⟨r, hr⟩
            · have : namedFiles k (⟨hd, pos, ep, some nm, .file d⟩ :: (a ++ e' :: b)) =
                  (nm, (k, d)) :: namedFiles (k + 1) (a ++ e' :: b) := by simp [namedFiles, hn]
              rw [this]
              unfold find at k5 ⊢
              rw [List.find?_cons_of_neg (by simpa using hnm), k5]
              simp; omega

theorem cartsOf_append (a b : List Shown) : cartsOf (a ++ b) = cartsOf a ++ cartsOf b := by simp [cartsOf]
theorem othersOf_append (a b : List Shown) : othersOf (a ++ b) = othersOf a ++ othersOf b := by simp [othersOf]

theorem cart_cons {n : Name} (h : n ≠ []) (d : List Nat) (l : List Shown) :
    cartsOf ((some n, .file d) :: l) = (n, d) :: cartsOf l ∧ othersOf ((some n, .file d) :: l) = othersOf l := by
  constructor
  · simp [cartsOf, asCart, h]
  · simp [othersOf, asCart, h]

theorem head_chosen {k : Nat} {es : List Entry} {name : Option Name} :
    Export.chosen (namedFiles k es) name = ExportSpec.chosen (cartsOf (es.map fun e => (e.name, e.content))) name := by
  cases name with
  | some n => rfl
  | none =>
    rw [← namedFiles_eq k]
    simp only [Export.chosen, ExportSpec.chosen]
    cases namedFiles k es <;> rfl

theorem writeCart_insert {S P Ref : Type} {I : Export.Impl S P Ref} {s : S} {p : P} {c : List (Name × Ref)} (h : I.carts s = some (p, c))
    {name : Name} {rom : List Nat} :
    ((find c name).isSome = true → ∀ target, writeCart I s (.insert name rom target) = none) ∧
    (find c name = none → writeCart I s (.insert name rom none) = I.insert p none name rom ∧
      (∀ t, find c t = none → writeCart I s (.insert name rom (some t)) = none) ∧
      (∀ t ref, find c t = some ref → writeCart I s (.insert name rom (some t)) = I.insert p (some ref) name rom)) := by
  unfold writeCart
  rw [h, Option.bind_some]
  refine ⟨fun h1 _ => if_pos h1, fun h1 => ?_⟩
  simp only [Option.bind_some, h1, Option.isSome_none, Bool.false_eq_true, if_false, true_and]
  exact ⟨fun t ht => by rw [ht]; rfl, fun t ref ht => by rw [ht]; rfl⟩

theorem impl_insert_some (m : State) (i : Nat) (d : List Nat) (name : Name) (rom : List Nat) :
    impl.insert m (some (i, d)) name rom = insertContent m i (some name) (.file rom) false := by
  simp only [impl, insertImpl]

theorem impl_insert_none (m : State) (name : Name) (rom : List Nat) :
    impl.insert m none name rom = insertContent m m.entries.length (some name) (.file rom) false := by
  simp only [impl, insertImpl]

theorem edit_insert (m : State) (i : Nat) (name : Option Name) (c : Content) (z : Bool) :
    edit m (.insert i name c z) = insertContent m i name c z := rfl

/-- **C39 (carts).** On an export that has given carts, every change of the carts is accepted exactly if it makes sense for the list of
the carts, and then the export has the changed list, its bytes read back as what is in memory, and its other entries are as
they were. -/
theorem C39_carts {size : Nat} (hsize : size < 2 ^ 32) {m : State} {l : Carts} (h : Represents size m l)
    (hroom : m.entries.length + 1 < 2 ^ 32) {op : Op} (ho : OpOk size op) :
    (∀ l', ExportSpec.apply l op = some l' → ∃ m', writeCart impl m op = some m' ∧ Represents size m' l' ∧
      othersOf (items m') = othersOf (items m) ∧ m'.entries.length ≤ m.entries.length + 1) ∧
    (ExportSpec.apply l op = none → writeCart impl m op = none) := by
  obtain ⟨hv, hl, hn, hs⟩ := h
  have hil : (items m).length = m.entries.length := by simp [items]
  have hcarts : impl.carts m = some (m, namedFiles 0 m.entries) := by
    show some (m, dictOf (namedFiles 0 m.entries)) = _
    rw [Export.dictOf_nodup]
    have := congrArg (List.map (·.1)) ((namedFiles_eq 0 m.entries).trans hl)
    rw [List.map_map] at this
    rw [show (namedFiles 0 m.entries).map (·.1) = l.map (·.1) from this]
    exact hn
  -- an entry found by name
  have found : ∀ n, Has l n → ∃ A d B, items m = A ++ (some n, .file d) :: B ∧ n ≠ [] ∧ ¬ Has (cartsOf A) n ∧ ¬ Has (cartsOf B) n ∧
      l = cartsOf A ++ (n, d) :: cartsOf B ∧ find (namedFiles 0 m.entries) n = some (A.length, d) := by
    intro n hh
    obtain ⟨a, e, b, d, e1, e2, e3, e4, e5, e6⟩ := find_some (k := 0) (es := m.entries) (n := n) (by rw [← hl] at hh; exact hh)
    have hi : items m = (a.map fun e => (e.name, e.content)) ++ (some n, .file d) :: (b.map fun e => (e.name, e.content)) := by
      rw [items, e1]; simp [e2, e3]
    have hl' : l = cartsOf (a.map fun e => (e.name, e.content)) ++ (n, d) :: cartsOf (b.map fun e => (e.name, e.content)) := by
      rw [← hl, hi, cartsOf_append, (cart_cons e4 d _).1]
    refine ⟨_, d, _, hi, e4, e5, ?_, hl', by rw [e6]; simp⟩
    rw [hl'] at hn
    exact (nodup_split hn).1
  have notfound : ∀ n, ¬ Has l n → find (namedFiles 0 m.entries) n = none := by
    intro n hh
    exact find_none (by rw [← hl] at hh; exact hh)
  have get : ∀ (A : List Shown) x B, items m = A ++ x :: B → (items m)[A.length]? = some x := by
    intro A x B e; rw [e]; simp
  -- changes of one cart
  have one : ∀ (name : Option Name) (k : Name → Option Carts) (g : Nat × List Nat → Option State),
      (∀ n A d B, items m = A ++ (some n, .file d) :: B → n ≠ [] → ¬ Has (cartsOf A) n → ¬ Has (cartsOf B) n →
        l = cartsOf A ++ (n, d) :: cartsOf B →
        (∀ l', k n = some l' → ∃ m', g (A.length, d) = some m' ∧ Represents size m' l' ∧
          othersOf (items m') = othersOf (items m) ∧ m'.entries.length ≤ m.entries.length + 1) ∧
        (k n = none → g (A.length, d) = none)) →
      (∀ l', ((ExportSpec.chosen l name).bind fun n => if Has l n then k n else none) = some l' →
        ∃ m', ((Export.chosen (namedFiles 0 m.entries) name).bind fun n => (find (namedFiles 0 m.entries) n).bind g) = some m' ∧
          Represents size m' l' ∧ othersOf (items m') = othersOf (items m) ∧ m'.entries.length ≤ m.entries.length + 1) ∧
      (((ExportSpec.chosen l name).bind fun n => if Has l n then k n else none) = none →
        ((Export.chosen (namedFiles 0 m.entries) name).bind fun n => (find (namedFiles 0 m.entries) n).bind g) = none) := by
    intro name k g hk
    rw [head_chosen, show cartsOf (m.entries.map fun e => (e.name, e.content)) = l from hl]
    cases ExportSpec.chosen l name with
    | none => simp
    | some n =>
      simp only [Option.bind_some]
      by_cases hh : Has l n
      · obtain ⟨A, d, B, e1, e2, e3, e4, e5, e6⟩ := found n hh
        rw [if_pos hh, e6, Option.bind_some]
        exact hk n A d B e1 e2 e3 e4 e5
      · rw [if_neg hh, notfound n hh]; simp
  -- a change of the file, seen as a change of the carts
  have finish : ∀ (e : Edit) (L : List Shown) (l' : Carts), EditOk (items m) e → Fits (items m) e → PodFormat.apply (items m) e = some L →
      cartsOf L = l' → (l'.map (·.1)).Nodup → (∀ c ∈ l', c.2.length = size) → othersOf L = othersOf (items m) →
      L.length ≤ (items m).length + 1 →
      ∃ m', edit m e = some m' ∧ Represents size m' l' ∧ othersOf (items m') = othersOf (items m) ∧
        m'.entries.length ≤ m.entries.length + 1 := by
    intro e L l' h1 h2 h3 h4 h5 h6 h7 h8
    obtain ⟨k1, k2⟩ := C39_edit hv h1
    obtain ⟨m', hm'⟩ := Option.isSome_iff_exists.mp (k1.mpr ⟨by rw [h3]; rfl, h2⟩)
    obtain ⟨v, ea⟩ := k2 m' hm'
    have hL : items m' = L := Option.some.inj (ea.symm.trans h3)
    refine ⟨m', hm', ⟨v, by rw [hL]; exact h4, h5, h6⟩, by rw [hL]; exact h7, ?_⟩
    have : (items m').length = m'.entries.length := by simp [items]
    rw [← this, hL, ← hil]; exact h8
  cases op with
  | insert name rom target =>
    obtain ⟨⟨n1, n2, n3, n4⟩, r1, r2⟩ := ho
    have hins : ∀ i, EditOk (items m) (.insert i (some name) (.file rom) false) ∧ Fits (items m) (.insert i (some name) (.file rom) false) := by
      intro i
      refine ⟨⟨by rw [hil]; exact hroom, r2, ?_, trivial⟩, ⟨name, rfl, n2⟩, by omega, by simp⟩
      intro x hx
      obtain rfl := Option.some.inj hx
      exact ⟨n3, n4⟩
    obtain ⟨w1, w2⟩ := writeCart_insert (name := name) (rom := rom) hcarts
    by_cases hh : Has l name
    · obtain ⟨A, d, B, e1, e2, e3, e4, e5, e6⟩ := found name hh
      rw [w1 (by rw [e6]; rfl)]
      cases target <;> simp [ExportSpec.apply, hh]
    · obtain ⟨w3, w4, w5⟩ := w2 (notfound name hh)
      cases target with
      | none =>
        rw [w3]
        simp only [ExportSpec.apply, hh, if_false, Option.some.injEq, reduceCtorEq, false_implies, and_true]
        rintro l' rfl
        rw [impl_insert_none]
        have fin := finish (.insert m.entries.length (some name) (.file rom) false)
        rw [edit_insert] at fin
        refine fin _ _ (hins _).1 (hins _).2 rfl ?_
          (nodup_insert (b := []) (by simpa using hn) (by simpa using hh)) ?_ ?_ ?_
        · rw [← hil, List.take_length, List.drop_length, cartsOf_append, hl, (cart_cons n1 rom _).1]; rfl
        · intro c hc
          rw [List.mem_append, List.mem_singleton] at hc
          rcases hc with hc | rfl
          · exact hs c hc
          · exact r1
        · rw [← hil, List.take_length, List.drop_length, othersOf_append, (cart_cons n1 rom _).2]
          simp [othersOf]
        · simp; omega
      | some tg =>
        simp only [ExportSpec.apply, hh, false_or]
        by_cases ht : Has l tg
        · obtain ⟨A, d, B, e1, e2, e3, e4, e5, e6⟩ := found tg ht
          rw [w5 tg _ e6, if_neg (by simpa using ht)]
          simp only [Option.some.injEq, reduceCtorEq, false_implies, and_true]
          have htw : l.takeWhile (fun c => c.1 != tg) = cartsOf A ∧ l.dropWhile (fun c => c.1 != tg) = (tg, d) :: cartsOf B := by
            rw [e5]
            have ha' := not_has.mp e3
            generalize cartsOf A = a at ha'
            clear e1 e3 e5 e6
            induction a with
            | nil => simp
            | cons c a ih =>
              have hc' := ha' c (by simp)
              have := ih fun y hy => ha' y (by simp [hy])
              simp [hc', this]
          rw [htw.1, htw.2]
          rintro l' rfl
          rw [impl_insert_some]
          have fin := finish (.insert A.length (some name) (.file rom) false)
          rw [edit_insert] at fin
          refine fin _ _ (hins _).1 (hins _).2 rfl ?_
            (nodup_insert (by rw [← e5]; exact hn) (by rw [← e5]; exact hh)) ?_ ?_ ?_
          · rw [e1, List.take_left' rfl, List.drop_left' rfl, cartsOf_append, (cart_cons n1 rom _).1, (cart_cons e2 d _).1]
          · intro c hc
            rw [List.mem_append, List.mem_cons] at hc
            rcases hc with hc | rfl | hc
            · exact hs c (by rw [e5]; simp [hc])
            · exact r1
            · exact hs c (by rw [e5]; exact List.mem_append_right _ hc)
          · rw [e1, List.take_left' rfl, List.drop_left' rfl, othersOf_append, othersOf_append, (cart_cons n1 rom _).2]
          · rw [e1]; simp; omega
        · rw [if_pos ht, w4 tg (notfound tg ht)]; simp
  | replace name rom =>
    obtain ⟨r1, r2⟩ := ho
    unfold writeCart
    rw [hcarts, Option.bind_some]
    refine one name (fun n => some (l.map fun c => if c.1 = n then (n, rom) else c)) (fun ref => replaceImpl m ref rom) ?_
    intro n A d B e1 e2 e3 e4 e5
    refine ⟨?_, by simp⟩
    intro l' hl'
    simp only [Option.some.injEq] at hl'
    have el : l' = cartsOf A ++ (n, rom) :: cartsOf B := by rw [← hl', e5]; exact map_split e3 e4 fun _ => (n, rom)
    have hd : d.length = size := hs (n, d) (by rw [e5]; simp)
    have hkind : ∀ x, (items m)[A.length]? = some x → SameKind x.2 (.file rom) := by
      intro x hx
      rw [get A _ B e1] at hx
      obtain rfl := Option.some.inj hx
      trivial
    have hap : PodFormat.apply (items m) (.replace A.length (.file rom)) = some (A ++ (some n, .file rom) :: B) := by
      show ((items m)[A.length]?).map _ = _
      rw [get A _ B e1, e1]
      simp
    have fin := finish (.replace A.length (.file rom))
    simp only [edit] at fin
    have := fin _ l' ⟨r2, trivial, hkind⟩ ⟨by omega, by simp⟩ hap
      (by rw [cartsOf_append, (cart_cons e2 rom _).1, el]) (by
        rw [el]; rw [e5] at hn; simpa using hn) (by
        intro c hc
        rw [el, List.mem_append, List.mem_cons] at hc
        rcases hc with hc | rfl | hc
        · exact hs c (by rw [e5]; simp [hc])
        · exact r1
        · exact hs c (by rw [e5]; simp [hc])) (by
        rw [e1, othersOf_append, othersOf_append, (cart_cons e2 rom _).2, (cart_cons e2 d _).2]) (by rw [e1]; simp)
    obtain ⟨m', k1, k2⟩ := this
    refine ⟨m', ?_, k2⟩
    show replaceImpl m (A.length, d) rom = some m'
    unfold replaceImpl
    rw [if_neg (by simp [r1, hd])]
    exact k1
  | delete name =>
    unfold writeCart
    rw [hcarts, Option.bind_some]
    refine one name (fun n => some (l.filter fun c => c.1 != n)) (fun ref => deleteContent m ref.1) ?_
    intro n A d B e1 e2 e3 e4 e5
    refine ⟨?_, by simp⟩
    intro l' hl'
    simp only [Option.some.injEq] at hl'
    have el : l' = cartsOf A ++ cartsOf B := by
      rw [← hl', e5, List.filter_append, List.filter_cons, if_neg (by simp),
        List.filter_eq_self.mpr (fun c hc => by simpa using not_has.mp e3 c hc),
        List.filter_eq_self.mpr (fun c hc => by simpa using not_has.mp e4 c hc)]
    have hap : PodFormat.apply (items m) (.delete A.length) = some (A ++ B) := by
      show (if A.length < (items m).length then _ else _) = _
      rw [e1, if_pos (by simp), List.take_left' rfl, ← List.drop_drop, List.drop_left' rfl]
      rfl
    have fin := finish (.delete A.length)
    simp only [edit] at fin
    refine fin _ l' trivial trivial hap (by rw [cartsOf_append, el]) ?_ ?_ ?_ ?_
    · rw [el]; rw [e5] at hn; exact (nodup_split hn).2
    · intro c hc
      rw [el, List.mem_append] at hc
      rcases hc with hc | hc
      · exact hs c (by rw [e5]; simp [hc])
      · exact hs c (by rw [e5]; simp [hc])
    · rw [e1, othersOf_append, othersOf_append, (cart_cons e2 d _).2]
    · rw [e1]; simp; omega
  | rename name target =>
    obtain ⟨n1, n2, n3, n4⟩ := ho
    unfold writeCart
    rw [hcarts, Option.bind_some]
    have happ : ExportSpec.apply l (.rename name target) = (ExportSpec.chosen l name).bind fun n =>
        if Has l n then (if Has l target then none else some (l.map fun c => if c.1 = n then (target, c.2) else c)) else none := by
      show ((ExportSpec.chosen l name).bind fun n =>
        if Has l n ∧ ¬ Has l target then some (l.map fun c => if c.1 = n then (target, c.2) else c) else none) = _
      congr 1; funext n
      by_cases h1 : Has l n <;> by_cases h2 : Has l target <;> simp [h1, h2]
    rw [happ]
    refine one name (fun n => if Has l target then none else some (l.map fun c => if c.1 = n then (target, c.2) else c))
      (fun ref => if (find (namedFiles 0 m.entries) target).isSome then none else renameContent m ref.1 target) ?_
    intro n A d B e1 e2 e3 e4 e5
    by_cases hh : Has l target
    · obtain ⟨A', d', B', -, -, -, -, -, e6'⟩ := found target hh
      simp [hh, e6']
    · simp only [hh, if_false, notfound target hh, Option.isSome_none, Bool.false_eq_true, reduceCtorEq, false_implies, and_true,
        Option.some.injEq]
      intro l' hl'
      have el : l' = cartsOf A ++ (target, d) :: cartsOf B := by rw [← hl', e5]; exact map_split e3 e4 fun c => (target, c.2)
      have hap : PodFormat.apply (items m) (.rename A.length target) = some (A ++ (some target, .file d) :: B) := by
        show ((items m)[A.length]?).map _ = _
        rw [get A _ B e1, e1]
        simp [renamed]
      have fin := finish (.rename A.length target)
      simp only [edit] at fin
      refine fin _ l' ⟨n3, n4⟩ (fun _ _ _ => n2) hap (by rw [cartsOf_append, (cart_cons n1 d _).1, el]) ?_ ?_ ?_ ?_
      · rw [el]
        rw [e5] at hn
        refine nodup_insert (nodup_split hn).2 ?_
        rw [not_has] at hh ⊢
        intro c hc; exact hh c (by rw [e5]; simp at hc ⊢; rcases hc with hc | hc <;> simp [hc])
      · intro c hc
        rw [el, List.mem_append, List.mem_cons] at hc
        rcases hc with hc | rfl | hc
        · exact hs c (by rw [e5]; simp [hc])
        · exact hs (n, d) (by rw [e5]; simp)
        · exact hs c (by rw [e5]; simp [hc])
      · rw [e1, othersOf_append, othersOf_append, (cart_cons n1 d _).2, (cart_cons e2 d _).2]
      · rw [e1]; simp

/-- **C39 (carts).** The same for any history of changes. -/
theorem C39_carts_history {size : Nat} (hsize : size < 2 ^ 32) {ops : List Op} {m : State} {l : Carts} (h : Represents size m l)
    (hroom : m.entries.length + ops.length < 2 ^ 32) (ho : ∀ op ∈ ops, OpOk size op) {l' : Carts} (hl : applyAll l ops = some l') :
    ∃ m', writeAll impl m ops = some m' ∧ Represents size m' l' ∧ othersOf (items m') = othersOf (items m) ∧
      readAll m'.data = some m' := by
  induction ops generalizing m l with
  | nil =>
    simp only [applyAll, Option.some.injEq] at hl
    subst hl
    exact ⟨m, rfl, h, rfl, h.1.2.1⟩
  | cons op ops ih =>
    rw [List.length_cons] at hroom
    simp only [applyAll, Option.bind_eq_some_iff] at hl
    obtain ⟨l1, h1, h2⟩ := hl
    obtain ⟨m1, k1, k2, k3, k4⟩ := (C39_carts hsize h (by omega) (ho op (by simp))).1 l1 h1
    obtain ⟨m', a, b, c, d⟩ := ih k2 (by omega) (fun o hm => ho o (by simp [hm])) h2
    exact ⟨m', by rw [writeAll, k1]; exact a, b, c.trans k3, d⟩

/-- **C39 (carts).** Carts are listed by their names in order; a cart is read by its name, without a name the first; other names are not
found. -/
theorem C39_carts_read {size : Nat} {m : State} {l : Carts} (h : Represents size m l) :
    listCarts impl m = some (l.map (·.1)) ∧ (∀ n rom, (n, rom) ∈ l → readCart impl m (some n) = some rom) ∧
      (∀ n, ¬ Has l n → readCart impl m (some n) = none) ∧ readCart impl m none = l.head?.map (·.2) := by
  obtain ⟨hv, hl, hn, hs⟩ := h
  have hnf := (namedFiles_eq 0 m.entries).trans hl
  have hcarts : impl.carts m = some (m, namedFiles 0 m.entries) := by
    show some (m, dictOf (namedFiles 0 m.entries)) = _
    rw [Export.dictOf_nodup]
    have := congrArg (List.map (·.1)) hnf
    rw [List.map_map] at this
    rw [show (namedFiles 0 m.entries).map (·.1) = l.map (·.1) from this]
    exact hn
  have byname : ∀ n rom, (n, rom) ∈ l → readCart impl m (some n) = some rom := by
    intro n rom hm
    obtain ⟨a, e, b, d, e1, e2, e3, e4, e5, e6⟩ := find_some (k := 0) (es := m.entries) (n := n) (by
      rw [show cartsOf (m.entries.map fun e => (e.name, e.content)) = l from hl]; exact ⟨rom, hm⟩)
    have hd : (n, d) ∈ l := by
      rw [← hl, items, e1]
      simp [cartsOf, asCart, e2, e3, e4]
    have : d = rom := by
      rw [← hl] at hn hm hd
      rw [hl] at hn hm hd
      clear hnf hcarts e6 hl hs
      induction l with
      | nil => simp at hm
      | cons c l ih =>
        rw [List.map_cons, List.nodup_cons] at hn
        rw [List.mem_cons] at hm hd
        rcases hm with rfl | hm <;> rcases hd with hd | hd
        · simp only [Prod.mk.injEq] at hd; exact hd.2
        · exact absurd (List.mem_map.mpr ⟨_, hd, rfl⟩) hn.1
        · subst hd; exact absurd (List.mem_map.mpr ⟨_, hm, rfl⟩) hn.1
        · exact ih hn.2 hm hd
    unfold readCart
    rw [hcarts, Option.bind_some]
    simp only [Export.chosen, Option.bind_some]
    rw [e6, this]; rfl
  refine ⟨?_, byname, ?_, ?_⟩
  · unfold listCarts
    rw [hcarts, ← hnf]
    simp
  · intro n hh
    unfold readCart
    rw [hcarts, Option.bind_some]
    simp only [Export.chosen, Option.bind_some]
    rw [find_none (by rw [show cartsOf (m.entries.map fun e => (e.name, e.content)) = l from hl]; exact hh)]
    rfl
  · cases l with
    | nil =>
      unfold readCart
      rw [hcarts, Option.bind_some]
      simp only
      rw [head_chosen, show cartsOf (m.entries.map fun e => (e.name, e.content)) = [] from hl]
      rfl
    | cons c l =>
      have := byname c.1 c.2 (by simp)
      unfold readCart at this ⊢
      rw [hcarts, Option.bind_some] at this ⊢
      simp only at this ⊢
      rw [head_chosen, show cartsOf (m.entries.map fun e => (e.name, e.content)) = c :: l from hl]
      exact this

/-- An export with a boot file and two carts. -/
def smallExport : Option State :=
  (create []).bind fun m => (insertContent m 0 (some []) (.file [9]) false).bind fun m =>
    (insertContent m 1 (some (lit "a.p8")) (.file [1, 1]) false).bind fun m => insertContent m 2 (some (lit "b.p8")) (.file [2, 2]) false

/-- Changes of the carts in it. -/
example : (smallExport.bind fun m => writeAll impl m [.insert (lit "c.p8") [3, 3] (some (lit "b.p8")), .replace none [4, 4],
      .rename (some (lit "b.p8")) (lit "d.p8"), .delete (some (lit "a.p8"))]).bind (fun m => (readAll m.data).map items) =
    some [(some [], .file [9]), (some (lit "c.p8"), .file [3, 3]), (some (lit "d.p8"), .file [2, 2])] := by decide +kernel

example : applyAll [(lit "a.p8", [1, 1]), (lit "b.p8", [2, 2])] [.insert (lit "c.p8") [3, 3] (some (lit "b.p8")), .replace none [4, 4],
      .rename (some (lit "b.p8")) (lit "d.p8"), .delete (some (lit "a.p8"))] =
    some [(lit "c.p8", [3, 3]), (lit "d.p8", [2, 2])] := by decide +kernel

/-- **C39 (a limit).** A cart that is renamed to the empty name (or inserted with it) is no longer a cart of the export. -/
theorem C39_empty_name_counterexample :
    (smallExport.bind fun m => writeCart impl m (.rename (some (lit "b.p8")) [])).bind (listCarts impl) = some [lit "a.p8"] ∧
    (ExportSpec.apply [(lit "a.p8", [1, 1]), (lit "b.p8", [2, 2])] (.rename (some (lit "b.p8")) [])).map (List.map (·.1)) =
      some [lit "a.p8", []] := by
  refine ⟨?_, ?_⟩ <;> decide +kernel

end Verif.PodFile
