import Verif.Topo
import Mathlib.Data.List.Nodup
import Mathlib.Data.List.Perm.Subperm
/-!
C46: dependency ordering.  C47: glob filters.
-/
namespace Verif

/-- A graph as it is built: each node once, all dependencies are nodes. -/
structure Graph.Ok (g : Graph) : Prop where
  nodup : (g.map (·.1)).Nodup
  closed : ∀ p ∈ g, ∀ d ∈ p.2, d ∈ g.map (·.1)

/-- How often the nodes that are not done depend on `n`. -/
def pending (g : Graph) (done : List Nat) (n : Nat) : Nat := ((g.filter fun p => p.1 ∉ done).flatMap (·.2)).count n

theorem lookup_of_mem {g : Graph} (h : (g.map (·.1)).Nodup) {p : Nat × List Nat} (hp : p ∈ g) : g.deps p.1 = p.2 := by
  unfold Graph.deps
  induction g with
  | nil => cases hp
  | cons q g ih =>
    rw [List.map_cons, List.nodup_cons] at h
    rw [List.lookup]
    rcases List.mem_cons.1 hp with rfl | hp
    · simp
    · have : p.1 ≠ q.1 := fun e => h.1 (e ▸ List.mem_map_of_mem hp)
      have : (p.1 == q.1) = false := by simpa using this
      rw [this]
      exact ih h.2 hp

theorem pending_cons {g : Graph} (h : (g.map (·.1)).Nodup) {node : Nat} (hn : node ∈ g.map (·.1)) {done : List Nat} (hd : node ∉ done) (n : Nat) :
    pending g done n = pending g (node :: done) n + (g.deps node).count n := by
  obtain ⟨p, hp, rfl⟩ := List.mem_map.1 hn
  rw [lookup_of_mem h hp]
  unfold pending
  induction g with
  | nil => cases hp
  | cons q g ih =>
    rw [List.map_cons, List.nodup_cons] at h
    rcases List.mem_cons.1 hp with rfl | hp'
    · have e1 : g.filter (fun q => q.1 ∉ p.1 :: done) = g.filter fun q => q.1 ∉ done := by
        apply List.filter_congr
        intro q hq
        have : q.1 ≠ p.1 := fun e => h.1 (e ▸ List.mem_map_of_mem hq)
        simp [this]
      rw [List.filter_cons_of_pos (by simpa using hd), List.filter_cons_of_neg (by simp), e1]
      simp [List.count_append]; omega
    · have hne : q.1 ≠ p.1 := fun e => h.1 (e ▸ List.mem_map_of_mem hp')
      have := ih h.2 hp' (List.mem_map_of_mem hp')
      by_cases hq : q.1 ∈ done
      · rw [List.filter_cons_of_neg (by simpa using hq), List.filter_cons_of_neg (by simp [hq])]
        exact this
      · rw [List.filter_cons_of_pos (by simpa using hq), List.filter_cons_of_pos (by simp [hq, hne])]
        simp only [List.flatMap_cons, List.count_append]
        omega

/-- The invariant of both loops: `rest` are the dependencies still to be counted down. -/
structure TopoInv (g : Graph) (done rest : List Nat) (ct : Nat → Int) (next : List Nat) : Prop where
  cnt : ∀ n, ct n = pending g done n + rest.count n
  done0 : ∀ n ∈ done, ct n = 0
  doneN : done.Nodup
  doneK : ∀ n ∈ done, n ∈ g.map (·.1)
  nextN : next.Nodup
  nextK : ∀ n ∈ next, n ∈ g.map (·.1)
  nextD : ∀ n ∈ next, n ∉ done
  nextI : ∀ n ∈ g.map (·.1), n ∉ done → (n ∈ next ↔ ct n = 0)
  order : done.Pairwise fun a b => b ∉ g.deps a

theorem relax_inv {g : Graph} : ∀ (rest : List Nat) (cnt : Nat → Int) (done next : List Nat), (∀ d ∈ rest, d ∈ g.map (·.1)) →
    TopoInv g done rest cnt next → TopoInv g done [] (relax rest cnt next).1 (relax rest cnt next).2
  | [], cnt, done, next, _, h => h
  | d :: rest, cnt, done, next, hk, h => by
    have hpos : cnt d = pending g done d + (rest.count d + 1 : Nat) := by
      rw [h.cnt d]; simp
    have hnd : d ∉ done := fun hd => by have := h.done0 d hd; omega
    have hnn : d ∉ next := fun hd => by have := (h.nextI d (hk d (by simp)) hnd).1 hd; omega
    simp only [relax]
    refine relax_inv rest _ done _ (fun x hx => hk x (List.mem_cons_of_mem _ hx)) ?_
    refine ⟨?_, ?_, h.doneN, h.doneK, ?_, ?_, ?_, ?_, h.order⟩
    · intro n
      have := h.cnt n
      by_cases hn : n = d
      · subst hn; simp; omega
      · have hf : (d == n) = false := by simpa using fun e => hn e.symm
        rw [List.count_cons, hf] at this
        simp [hn]; simpa using this
    · intro n hn
      have : n ≠ d := fun e => hnd (e ▸ hn)
      simp [this]; exact h.done0 n hn
    · split
      · exact List.nodup_cons.2 ⟨hnn, h.nextN⟩
      · exact h.nextN
    · intro n hn
      split at hn
      · rcases List.mem_cons.1 hn with rfl | hn
        · exact hk n (by simp)
        · exact h.nextK n hn
      · exact h.nextK n hn
    · intro n hn
      split at hn
      · rcases List.mem_cons.1 hn with rfl | hn
        · exact hnd
        · exact h.nextD n hn
      · exact h.nextD n hn
    · intro n hn hdn
      by_cases hnd' : n = d
      · subst hnd'
        by_cases hc : cnt n - 1 = 0
        · simp [hc]
        · simp [hc, hnn]
      · have hiff := h.nextI n hn hdn
        simp only [hnd', if_false]
        split
        · simp [hnd', hiff]
        · exact hiff

theorem topoLoop_inv {g : Graph} (hg : g.Ok) : ∀ (fuel : Nat) (cnt : Nat → Int) (next done : List Nat), TopoInv g done [] cnt next →
    g.length ≤ done.length + fuel →
    (topoLoop g fuel cnt next done).1 = [] ∧ TopoInv g (topoLoop g fuel cnt next done).2.1 [] (topoLoop g fuel cnt next done).2.2 [] := by
  have fin : ∀ cnt next done, TopoInv g done [] cnt next → g.length ≤ done.length → next = [] := by
    intro cnt next done h hle
    have hn : (done ++ next).Nodup := List.nodup_append.2 ⟨h.doneN, h.nextN, fun a ha b hb e => h.nextD b hb (e ▸ ha)⟩
    have hs : (done ++ next) ⊆ g.map (·.1) := by
      intro n hn
      rcases List.mem_append.1 hn with hn | hn
      · exact h.doneK n hn
      · exact h.nextK n hn
    have := (List.subperm_of_subset hn hs).length_le
    simp at this
    exact List.length_eq_zero_iff.1 (by omega)
  intro fuel
  induction fuel with
  | zero =>
    intro cnt next done h hle
    have := fin cnt next done h (by omega)
    subst this
    exact ⟨rfl, h⟩
  | succ fuel ih =>
    intro cnt next done h hle
    cases next with
    | nil => exact ⟨rfl, h⟩
    | cons node next =>
      simp only [topoLoop]
      have hk := h.nextK node (by simp)
      have hd := h.nextD node (by simp)
      have h0 : cnt node = 0 := (h.nextI node hk hd).1 (by simp)
      have hnn := List.nodup_cons.1 h.nextN
      have hp := pending_cons hg.nodup hk hd
      have hdeps : ∀ d ∈ g.deps node, d ∈ g.map (·.1) := by
        obtain ⟨p, hq, rfl⟩ := List.mem_map.1 hk
        rw [lookup_of_mem hg.nodup hq]; exact hg.closed p hq
      have hno : ∀ n, cnt n = 0 → n ∉ g.deps node := by
        intro n hn hm
        have h1 := h.cnt n
        have h2 := hp n
        have h3 := List.count_pos_iff.2 hm
        simp at h1; omega
      refine ih _ _ _ (relax_inv (g.deps node) cnt (node :: done) next hdeps ?_) (by simp; omega)
      refine ⟨?_, ?_, List.nodup_cons.2 ⟨hd, h.doneN⟩, ?_, hnn.2, fun n hn => h.nextK n (List.mem_cons_of_mem _ hn), ?_, ?_, ?_⟩
      · intro n
        have h1 := h.cnt n
        have h2 := hp n
        simp at h1; omega
      · intro n hn
        rcases List.mem_cons.1 hn with rfl | hn
        · exact h0
        · exact h.done0 n hn
      · intro n hn
        rcases List.mem_cons.1 hn with rfl | hn
        · exact hk
        · exact h.doneK n hn
      · intro n hn
        have := h.nextD n (List.mem_cons_of_mem _ hn)
        simp only [List.mem_cons, not_or]
        exact ⟨fun e => hnn.1 (e ▸ hn), this⟩
      · intro n hn hd'
        simp only [List.mem_cons, not_or] at hd'
        have := h.nextI n hn hd'.2
        simp only [List.mem_cons, hd'.1, false_or] at this
        exact this
      · refine List.pairwise_cons.2 ⟨fun b hb => hno b (h.done0 b hb), h.order⟩

theorem topo_start {g : Graph} (hg : g.Ok) :
    TopoInv g [] [] g.backcount ((g.map (·.1)).filter fun n => g.backcount n == 0).reverse := by
  have hpend : ∀ n, pending g [] n = (g.flatMap (·.2)).count n := by
    intro n; unfold pending; rw [List.filter_eq_self.2 (by simp)]
  refine ⟨?_, by simp, List.nodup_nil, by simp, ?_, ?_, by simp, ?_, List.Pairwise.nil⟩
  · intro n; rw [hpend]; simp [Graph.backcount]
  · exact List.nodup_reverse.2 (hg.nodup.filter _)
  · intro n hn; rw [List.mem_reverse, List.mem_filter] at hn; exact hn.1
  · intro n hn _; rw [List.mem_reverse, List.mem_filter]; simp; intro h; simpa using hn

theorem mem_firsts : ∀ (l seen : List Nat) (n : Nat), n ∈ firsts seen l ↔ n ∈ l ∧ n ∉ seen
  | [], seen, n => by simp [firsts]
  | x :: xs, seen, n => by
    simp only [firsts]
    split
    · rename_i h
      rw [mem_firsts xs seen n]
      constructor
      · rintro ⟨h1, h2⟩; exact ⟨List.mem_cons_of_mem _ h1, h2⟩
      · rintro ⟨h1, h2⟩
        rcases List.mem_cons.1 h1 with rfl | h1
        · exact absurd h h2
        · exact ⟨h1, h2⟩
    · rename_i h
      simp only [List.mem_cons, mem_firsts xs (x :: seen) n, not_or]
      constructor
      · rintro (rfl | ⟨h1, h2, h3⟩)
        · exact ⟨Or.inl rfl, h⟩
        · exact ⟨Or.inr h1, h3⟩
      · rintro ⟨h1 | h1, h2⟩
        · exact Or.inl h1
        · by_cases hx : n = x
          · exact Or.inl hx
          · exact Or.inr ⟨h1, hx, h2⟩

theorem firsts_nodup : ∀ (l seen : List Nat), (firsts seen l).Nodup
  | [], _ => List.nodup_nil
  | x :: xs, seen => by
    simp only [firsts]
    split
    · exact firsts_nodup xs seen
    · refine List.nodup_cons.2 ⟨?_, firsts_nodup xs _⟩
      rw [mem_firsts]; simp

/-- Ordering returns every item exactly once, even if there are cycles. -/
theorem C46_each_once (g : Graph) (hg : g.Ok) : (topoSort g).Perm (g.map (·.1)) := by
  obtain ⟨h1, h2⟩ := topoLoop_inv hg g.length g.backcount _ [] (topo_start hg) (by simp)
  unfold topoSort
  simp only
  generalize topoLoop g g.length g.backcount ((g.map (·.1)).filter fun n => g.backcount n == 0).reverse [] = r at h1 h2
  obtain ⟨next, done, cnt⟩ := r
  simp only at h1 h2 ⊢
  rw [List.perm_ext_iff_of_nodup]
  · intro n
    rw [List.mem_append, List.mem_reverse, List.mem_filter, Graph.counted, mem_firsts]
    constructor
    · rintro (⟨⟨h3, -⟩, -⟩ | h3)
      · obtain ⟨p, hp, hd⟩ := List.mem_flatMap.1 h3
        exact hg.closed p hp n hd
      · exact h2.doneK n h3
    · intro hn
      by_cases hd : n ∈ done
      · exact Or.inr hd
      · left
        have hc : cnt n ≠ 0 := fun e => by have := (h2.nextI n hn hd).2 e; cases this
        refine ⟨⟨?_, by simp⟩, by simpa using hc⟩
        have h3 := h2.cnt n
        simp at h3
        have h4 : 0 < pending g done n := by omega
        obtain ⟨p, hp, hd⟩ := List.mem_flatMap.1 (List.count_pos_iff.1 h4)
        exact List.mem_flatMap.2 ⟨p, (List.mem_filter.1 hp).1, hd⟩
  · refine List.nodup_append.2 ⟨List.nodup_reverse.2 ((firsts_nodup _ _).filter _), h2.doneN, ?_⟩
    rintro a ha b hb rfl
    rw [List.mem_reverse, List.mem_filter] at ha
    have := h2.done0 a hb
    simp [this] at ha
  · exact hg.nodup

/-- Specification: `n` depends on `m`, directly or not. -/
inductive DependsOn (g : Graph) : Nat → Nat → Prop
  | direct {n m ds} (h : (n, ds) ∈ g) (hm : m ∈ ds) : DependsOn g n m
  | trans {n m k} (h1 : DependsOn g n m) (h2 : DependsOn g m k) : DependsOn g n k

theorem exists_maximal {R : Nat → Nat → Prop} (hi : ∀ a, ¬ R a a) (ht : ∀ a b c, R a b → R b c → R a c) : ∀ l : List Nat, l ≠ [] →
    ∃ m ∈ l, ∀ x ∈ l, ¬ R m x
  | [], h => absurd rfl h
  | a :: l, _ => by
    by_cases hl : l = []
    · subst hl; exact ⟨a, by simp, by simpa using hi a⟩
    · obtain ⟨m, hm, h⟩ := exists_maximal hi ht l hl
      by_cases hma : R m a
      · refine ⟨a, by simp, ?_⟩
        intro x hx
        rcases List.mem_cons.1 hx with rfl | hx
        · exact hi x
        · exact fun h1 => h x hx (ht _ _ _ hma h1)
      · refine ⟨m, List.mem_cons_of_mem _ hm, ?_⟩
        intro x hx
        rcases List.mem_cons.1 hx with rfl | hx
        · exact hma
        · exact h x hx

/-- If nothing depends on itself, dependencies come before what depends on them. -/
theorem C46_order (g : Graph) (hg : g.Ok) (hac : ∀ n, ¬ DependsOn g n n) (n : Nat) (ds : List Nat) (hn : (n, ds) ∈ g) (d : Nat) (hd : d ∈ ds) :
    ∃ a b c, topoSort g = a ++ d :: b ++ n :: c := by
  have honce := C46_each_once g hg
  obtain ⟨h1, h2⟩ := topoLoop_inv hg g.length g.backcount _ [] (topo_start hg) (by simp)
  unfold topoSort at honce ⊢
  simp only at honce ⊢
  generalize topoLoop g g.length g.backcount ((g.map (·.1)).filter fun n => g.backcount n == 0).reverse [] = r at h1 h2 honce
  obtain ⟨next, done, cnt⟩ := r
  simp only at h1 h2 honce ⊢
  -- all nodes are done
  have hall : (g.map (·.1)).filter (fun n => n ∉ done) = [] := by
    by_contra hne
    obtain ⟨m, hm, hmax⟩ := exists_maximal (R := fun a b => DependsOn g b a) hac (fun a b c h1 h2 => DependsOn.trans h2 h1) _ hne
    rw [List.mem_filter] at hm
    have hmd : m ∉ done := by simpa using hm.2
    have hc : cnt m ≠ 0 := fun e => by have := (h2.nextI m hm.1 hmd).2 e; cases this
    have h3 := h2.cnt m
    simp at h3
    have h4 : 0 < pending g done m := by omega
    obtain ⟨p, hp, hd⟩ := List.mem_flatMap.1 (List.count_pos_iff.1 h4)
    rw [List.mem_filter] at hp
    exact hmax p.1 (List.mem_filter.2 ⟨List.mem_map_of_mem hp.1, hp.2⟩) (DependsOn.direct hp.1 hd)
  have hmem : ∀ x ∈ g.map (·.1), x ∈ done := by
    intro x hx
    by_contra h
    have : x ∈ (g.map (·.1)).filter (fun n => n ∉ done) := List.mem_filter.2 ⟨hx, by simpa using h⟩
    rw [hall] at this; cases this
  have hnil : (g.counted.filter fun n => cnt n != 0) = [] := by
    rw [List.filter_eq_nil_iff]
    intro x hx
    rw [Graph.counted, mem_firsts] at hx
    obtain ⟨p, hp, hd⟩ := List.mem_flatMap.1 hx.1
    have := h2.done0 x (hmem x (hg.closed p hp x hd))
    simp [this]
  rw [hnil, List.reverse_nil, List.nil_append]
  have hnk : n ∈ done := hmem n (List.mem_map_of_mem (f := (·.1)) hn)
  have hdk : d ∈ done := hmem d (hg.closed _ hn d hd)
  obtain ⟨a, c, rfl⟩ := List.append_of_mem hnk
  have hdc : d ∉ c := by
    intro hdc
    have := (List.pairwise_cons.1 (List.pairwise_append.1 h2.order).2.1).1 d hdc
    have e := lookup_of_mem hg.nodup hn
    simp only at e
    rw [e] at this
    exact this hd
  have hdn : d ≠ n := by rintro rfl; exact hac d (DependsOn.direct hn hd)
  have hda : d ∈ a := by
    rcases List.mem_append.1 hdk with h | h
    · exact h
    · rcases List.mem_cons.1 h with h | h
      · exact absurd h hdn
      · exact absurd h hdc
  obtain ⟨a', b', rfl⟩ := List.append_of_mem hda
  exact ⟨a', b', c, rfl⟩

/-- 1 includes 2 and 3, 2 includes 3 twice. -/
def demoGraph : Graph := [(1, [2, 3]), (2, [3, 3]), (3, []), (4, [])]

example : topoSort demoGraph = [3, 2, 1, 4] := by decide +kernel

example : demoGraph.Ok := ⟨by decide, by decide⟩

theorem demoGraph_acyclic : ∀ n, ¬ DependsOn demoGraph n n := by
  have : ∀ n m, DependsOn demoGraph n m → n < m := by
    intro n m h
    induction h with
    | direct h hm => simp [demoGraph] at h; rcases h with ⟨rfl, rfl⟩ | ⟨rfl, rfl⟩ | ⟨rfl, rfl⟩ | ⟨rfl, rfl⟩ <;> simp at hm <;> omega
    | trans _ _ h1 h2 => omega
  intro n h; have := this n n h; omega

/-- A cycle: still each once. -/
example : topoSort [(1, [2]), (2, [1]), (3, [1])] = [1, 2, 3] := by decide +kernel

/-! ### C47 -/

theorem globLoop_iff (mat : List Nat → Bool) : ∀ (ps : List (List Nat × Bool)) (r : Bool),
    globLoop mat ps r = true ↔ (∀ p ∈ ps, mat p.1 = true → p.2 = true) ∧ (r = true ∨ ∃ p ∈ ps, mat p.1 = true)
  | [], r => by simp [globLoop]
  | p :: ps, r => by
    simp only [globLoop]
    by_cases hm : mat p.1 = true
    · rw [if_pos hm]
      cases hp : p.2 with
      | false => simp [hm, hp]
      | true => simp [globLoop_iff mat ps, hm, hp]
    · rw [if_neg hm]; simp [globLoop_iff mat ps, hm]

/-- A path is selected iff some positive pattern matches it and no negative (`!`) pattern does. -/
theorem C47_glob (mat : List Nat → List Nat → Bool) (patterns : List (List Nat)) (path : List Nat) :
    globMatches mat patterns path = true ↔
      (∃ p ∈ patterns, p.head? ≠ some 33 ∧ mat p path = true) ∧ ∀ p, 33 :: p ∈ patterns → mat p path = false := by
  unfold globMatches
  rw [globLoop_iff]
  simp only [List.mem_map, Bool.false_eq_true, false_or]
  have neg : ∀ p : List Nat, p.head? = some 33 → p = 33 :: p.tail := by
    intro p h
    cases p with
    | nil => cases h
    | cons a p => simp at h; subst h; rfl
  constructor
  · rintro ⟨h1, ⟨_, ⟨q, hq, rfl⟩, hm⟩⟩
    have hpos : ¬ q.head? = some 33 := by
      intro h
      have := h1 _ ⟨q, hq, rfl⟩ hm
      simp [globRule, h] at this
    refine ⟨⟨q, hq, hpos, by simpa [globRule, hpos] using hm⟩, ?_⟩
    intro p hp
    rw [Bool.eq_false_iff]
    intro hm'
    have := h1 _ ⟨33 :: p, hp, rfl⟩ (by simpa [globRule] using hm')
    simp [globRule] at this
  · rintro ⟨⟨q, hq, hpos, hm⟩, h2⟩
    refine ⟨?_, ⟨_, ⟨q, hq, rfl⟩, by simpa [globRule, hpos] using hm⟩⟩
    rintro _ ⟨p, hp, rfl⟩ hm'
    by_cases h : p.head? = some 33
    · rw [neg p h] at hp hm'
      rw [globRule] at hm'
      simp at hm'
      rw [h2 _ hp] at hm'; cases hm'
    · simp [globRule, h]

/-- The order of the patterns does not matter. -/
theorem C47_order (mat : List Nat → List Nat → Bool) (ps qs : List (List Nat)) (h : ps.Perm qs) (path : List Nat) :
    globMatches mat ps path = globMatches mat qs path := by
  rw [Bool.eq_iff_iff, C47_glob, C47_glob]
  simp only [h.mem_iff]

/-- `a`, `!b` with patterns that match prefixes. -/
example : globMatches (fun p s => p.isPrefixOf s) [[97], [33, 97, 98]] [97, 99] = true ∧
    globMatches (fun p s => p.isPrefixOf s) [[97], [33, 97, 98]] [97, 98] = false := by decide +kernel

end Verif
