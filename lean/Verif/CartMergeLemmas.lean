import Verif.CartMerge
import Verif.Spec.CartMerge
/-
Lemmas for C78.
-/
namespace Verif.CartDir

/-! ### Names of parents -/

theorem beforeLast_name {x : List Nat} (a : List Nat) (h : 47 ∉ x) : beforeLast (a ++ 47 :: x) = a := by
  unfold beforeLast
  rw [List.reverse_append, List.reverse_cons, List.append_assoc, List.dropWhile_append_of_pos]
  · simp
  · intro c hc
    simp only [List.mem_reverse] at hc
    simp only [bne_iff_ne, ne_eq]
    rintro rfl; exact h hc

theorem beforeLast_none {x : List Nat} (h : 47 ∉ x) : beforeLast x = [] := by
  unfold beforeLast
  have : ∀ l : List Nat, 47 ∉ l → l.dropWhile (· != 47) = [] := by
    intro l hl
    induction l with
    | nil => rfl
    | cons c l ih =>
      rw [List.dropWhile_cons_of_pos (by simp only [bne_iff_ne, ne_eq]; rintro rfl; exact hl (by simp))]
      exact ih fun hm => hl (by simp [hm])
  rw [this _ (by simpa using h)]
  rfl

theorem rstrip_name {a x : List Nat} (hx : Proper x) : rstripSlash (a ++ x) = a ++ x ∧ rstripSlash (a ++ x ++ [47]) = a ++ x := by
  have h : (a ++ x).reverse.dropWhile (· == 47) = (a ++ x).reverse := by
    rw [List.reverse_append]
    cases hr : x.reverse with
    | nil => exact absurd (by simpa using hr) hx.1
    | cons c r =>
      have : c ≠ 47 := by
        rintro rfl
        exact hx.2.1 (List.mem_reverse.1 (by rw [hr]; simp))
      rw [List.cons_append, List.dropWhile_cons_of_neg (by simpa using this)]
  constructor
  · unfold rstripSlash; rw [h, List.reverse_reverse]
  · unfold rstripSlash
    rw [List.reverse_append, List.reverse_singleton, List.singleton_append, List.dropWhile_cons_of_pos (by simp), h, List.reverse_reverse]

/-- The name of the directory of something in `q`: `/` at the top. -/
def parentName (q : Path) : Key := if q = [] then [47] else keyOf q true

theorem parent_child {q : Path} {x : Name} (hx : Proper x) : beforeLast (keyOf q true ++ x) ++ [47] = parentName q := by
  unfold parentName
  rcases dirName_keyOf q with h | ⟨j, h⟩
  · have : q = [] := by
      cases q with
      | nil => rfl
      | cons y q => rw [keyOf_cons_true] at h; simp at h
    rw [h, if_pos this, List.nil_append, beforeLast_none hx.2.1, List.nil_append]
  · have : q ≠ [] := by rintro rfl; simp [keyOf] at h
    rw [h, if_neg this, List.append_assoc, List.singleton_append, beforeLast_name _ hx.2.1]

theorem keyOf_concat (q : Path) (x : Name) (b : Bool) : keyOf (q ++ [x]) b = keyOf q true ++ (if b then x ++ [47] else x) := by
  cases q with
  | nil => simp [keyOf]
  | cons y q => rw [keyOf_append _ _ _ (by simp) (by simp)]; simp [keyOf]

theorem parent_key {q : Path} {x : Name} (b : Bool) (hx : Proper x) : beforeLast (rstripSlash (keyOf (q ++ [x]) b)) ++ [47] = parentName q := by
  rw [keyOf_concat]
  cases b with
  | false => simp only [Bool.false_eq_true, if_false]; rw [(rstrip_name hx).1, parent_child hx]
  | true => simp only [if_true]; rw [← List.append_assoc, (rstrip_name hx).2, parent_child hx]

theorem parent_dir {q : Path} {x : Name} (hx : Proper x) : beforeLast (keyOf (q ++ [x]) true).dropLast ++ [47] = parentName q := by
  rw [keyOf_concat]
  simp only [if_true]
  rw [← List.append_assoc, List.dropLast_concat, parent_child hx]

theorem parentName_ne {q : Path} (hq : q ≠ []) (hp : ∀ x ∈ q, Proper x) : parentName q = keyOf q true ∧ keyOf q true ≠ [47] := by
  refine ⟨by rw [parentName, if_neg hq], fun h => ?_⟩
  cases q with
  | nil => exact hq rfl
  | cons x q =>
    rw [keyOf_cons_true] at h
    have := congrArg List.length h
    have hx : x.length ≠ 0 := by have := (hp x (by simp)).1; simpa using this
    simp at this; omega

/-! ### Parents are made -/

/-- Directories are in listed directories. -/
def DirsListed (c : Files) : Prop := ∀ (q : Path) (x : Name), q ≠ [] → (∀ y ∈ q ++ [x], Proper y) → (c.lookup (keyOf (q ++ [x]) true)).isSome →
  (c.lookup (keyOf q true)).isSome

theorem makeParents_lookup : ∀ (n : Nat) (c : Files) (q : Path), q.length ≤ n → (∀ x ∈ q, Proper x) →
    (∀ (r : Path) (x : Name), r ≠ [] → r ++ [x] <+: q → (c.lookup (keyOf (r ++ [x]) true)).isSome → (c.lookup (keyOf r true)).isSome) →
    ((∀ k, (c.lookup k = none ∧ ∃ r, r ≠ [] ∧ r <+: q ∧ k = keyOf r true) → (makeParents n c (parentName q)).lookup k = some .dir) ∧
      (∀ k, ¬ (c.lookup k = none ∧ ∃ r, r ≠ [] ∧ r <+: q ∧ k = keyOf r true) → (makeParents n c (parentName q)).lookup k = c.lookup k)) := by
  intro n
  induction n with
  | zero =>
    intro c q hq hp hl
    have : q = [] := List.length_eq_zero_iff.1 (by omega)
    subst this
    refine ⟨fun k ⟨_, r, hr, hr', _⟩ => absurd (List.prefix_nil.1 hr') hr, fun k _ => rfl⟩
  | succ n ih =>
    intro c q hq hp hl
    by_cases h0 : q = []
    · subst h0
      rw [makeParents, if_neg (by simp [parentName])]
      refine ⟨fun k ⟨_, r, hr, hr', _⟩ => absurd (List.prefix_nil.1 hr') hr, fun k _ => rfl⟩
    · obtain ⟨h1, h2⟩ := parentName_ne h0 hp
      obtain ⟨r, x, rfl⟩ : ∃ r x, q = r ++ [x] := ⟨q.dropLast, q.getLast h0, (List.dropLast_concat_getLast h0).symm⟩
      have hx : Proper x := hp x (by simp)
      have hpr : ∀ y ∈ r, Proper y := fun y hy => hp y (by simp [hy])
      rw [makeParents, h1]
      by_cases hc : c.lookup (keyOf (r ++ [x]) true) = none
      · rw [if_pos ⟨h2, hc⟩, parent_dir hx]
        have hne : ∀ s, s ≠ [] → s <+: r → keyOf s true ≠ keyOf (r ++ [x]) true := by
          intro s hs hsr he
          have := (keyOf_inj hs (by simp) (fun y hy => hpr y (hsr.subset hy)) hp he).1
          rw [this] at hsr
          exact absurd (prefix_self hsr) (by simp)
        obtain ⟨i1, i2⟩ := ih (put c (keyOf (r ++ [x]) true) .dir) r (by simp at hq; omega) hpr (by
          intro s y hs hsr h
          rw [lookup_put, if_neg (hne _ (by simp) hsr)] at h
          rw [lookup_put, if_neg (hne s hs ((List.prefix_append _ _).trans hsr))]
          exact hl s y hs (hsr.trans (List.prefix_append _ _)) h)
        constructor
        · rintro k ⟨hk, s, hs, hsq, rfl⟩
          rcases List.prefix_concat_iff.1 hsq with e | e
          · subst e
            rw [i2, lookup_put, if_pos rfl]
            rintro ⟨h, -⟩
            rw [lookup_put, if_pos rfl] at h; cases h
          · exact i1 _ ⟨by rw [lookup_put, if_neg (hne s hs e)]; exact hk, s, hs, e, rfl⟩
        · intro k hk
          have hk1 : k ≠ keyOf (r ++ [x]) true := by
            rintro rfl
            exact hk ⟨hc, _, by simp, List.prefix_refl _, rfl⟩
          rw [i2 k, lookup_put, if_neg hk1]
          rintro ⟨h, s, hs, hsr, rfl⟩
          rw [lookup_put, if_neg hk1] at h
          exact hk ⟨h, s, hs, hsr.trans (List.prefix_append _ _), rfl⟩
      · rw [if_neg (fun h => hc h.2)]
        -- all directories above are there
        have all : ∀ (m : Nat) (s : Path), (r ++ [x]).length = s.length + m → s ≠ [] → s <+: r ++ [x] → (c.lookup (keyOf s true)).isSome := by
          intro m
          induction m with
          | zero =>
            intro s hm hs hp'
            rw [hp'.eq_of_length (by omega)]
            exact Option.isSome_iff_ne_none.2 hc
          | succ m ih =>
            intro s hm hs hp'
            obtain ⟨t, ht⟩ := hp'
            cases t with
            | nil => rw [List.append_nil] at ht; rw [ht] at hm; omega
            | cons y t =>
              have hp2 : s ++ [y] <+: r ++ [x] := ⟨t, by rw [← ht]; simp⟩
              exact hl s y hs hp2 (ih (s ++ [y]) (by rw [hm, List.length_append (as := s)]; simp only [List.length_singleton]; omega) (by simp) hp2)
        constructor
        · rintro k ⟨hk, s, hs, hsq, rfl⟩
          have := all ((r ++ [x]).length - s.length) s (by have := hsq.length_le; omega) hs hsq
          rw [hk] at this; cases this
        · intro k _; rfl

theorem keys_put {c : Files} {k : Key} {e : Entry} (h : (c.map (·.1)).Nodup) : ((put c k e).map (·.1)).Nodup := by
  induction c with
  | nil => simp [put]
  | cons x c ih =>
    obtain ⟨a, b⟩ := x
    simp only [List.map_cons, List.nodup_cons] at h
    rw [put]
    split
    · rename_i ha; subst ha; simpa using h
    · rename_i ha
      simp only [List.map_cons, List.nodup_cons]
      refine ⟨fun hm => ?_, ih h.2⟩
      obtain ⟨y, hy, he⟩ := List.mem_map.1 hm
      have hy' : (put c k e).lookup a = some y.2 := lookup_of (ih h.2) (by rw [← he]; exact hy)
      rw [lookup_put, if_neg ha] at hy'
      exact h.1 (List.mem_map.2 ⟨_, lookup_mem hy', rfl⟩)

theorem keys_makeParents : ∀ (n : Nat) {c : Files} {k : Key}, (c.map (·.1)).Nodup → ((makeParents n c k).map (·.1)).Nodup
  | 0, _, _, h => h
  | n + 1, c, k, h => by
    rw [makeParents]
    split
    · exact keys_makeParents n (keys_put h)
    · exact h

/-! ### The merged cart -/

/-- Names are proper, and files and directories are named as such. -/
def Named (c : Files) : Prop := ∀ k e, c.lookup k = some e → ∃ q : Path, q ≠ [] ∧ (∀ x ∈ q, Proper x) ∧ k = keyOf q e.isDir

/-- Everything is in a listed directory. -/
def Listed (c : Files) : Prop := ∀ (q : Path) (x : Name) (b : Bool), q ≠ [] → (∀ y ∈ q ++ [x], Proper y) → (c.lookup (keyOf (q ++ [x]) b)).isSome →
  (c.lookup (keyOf q true)).isSome

theorem mergeOne_spec {wanted : Key → Bool} {c : Files} (hl : Listed c) {q : Path} (hq : q ≠ []) (hp : ∀ x ∈ q, Proper x) (e : Entry)
    (hw : wanted (keyOf q e.isDir) = true) :
    (mergeOne wanted c (keyOf q e.isDir, e)).lookup (keyOf q e.isDir) = some e ∧
      (∀ r x t, q = r ++ x :: t → r ≠ [] → c.lookup (keyOf r true) = none → (mergeOne wanted c (keyOf q e.isDir, e)).lookup (keyOf r true) = some .dir) ∧
      (∀ k, k ≠ keyOf q e.isDir → (c.lookup k = none → ¬ ∃ r x t, q = r ++ x :: t ∧ r ≠ [] ∧ k = keyOf r true) →
        (mergeOne wanted c (keyOf q e.isDir, e)).lookup k = c.lookup k) := by
  obtain ⟨p, x, rfl⟩ : ∃ r x, q = r ++ [x] := ⟨q.dropLast, q.getLast hq, (List.dropLast_concat_getLast hq).symm⟩
  have hx : Proper x := hp x (by simp)
  have hpp : ∀ y ∈ p, Proper y := fun y hy => hp y (by simp [hy])
  have hne : ∀ s, s ≠ [] → s <+: p → keyOf s true ≠ keyOf (p ++ [x]) e.isDir := by
    intro s hs hsr he
    have := (keyOf_inj hs (by simp) (fun y hy => hpp y (hsr.subset hy)) hp he).1
    rw [this] at hsr
    exact absurd (prefix_self hsr) (by simp)
  have hlen : p.length ≤ (keyOf (p ++ [x]) e.isDir).length := by
    have : ∀ (q : Path) (b : Bool), (∀ y ∈ q, Proper y) → q.length ≤ (keyOf q b).length := by
      intro q b hp
      induction q with
      | nil => simp
      | cons x q ih =>
        have hx : x.length ≠ 0 := by have := (hp x (by simp)).1; simpa using this
        cases q with
        | nil => cases b <;> simp [keyOf] <;> omega
        | cons y q =>
          have := ih (fun z hz => hp z (by simp [List.mem_cons.1 hz]))
          rw [keyOf_cons _ _ _ (by simp)]
          simp only [List.length_cons, List.length_append] at this ⊢; omega
    have := this (p ++ [x]) e.isDir hp
    simp at this; omega
  have hm := makeParents_lookup (keyOf (p ++ [x]) e.isDir).length (put c (keyOf (p ++ [x]) e.isDir) e) p hlen hpp (by
    intro s y hs hsr h
    rw [lookup_put, if_neg (hne _ (by simp) hsr)] at h
    rw [lookup_put, if_neg (hne s hs ((List.prefix_append _ _).trans hsr))]
    exact hl s y true hs (fun z hz => hpp z (hsr.subset hz)) h)
  have hone : mergeOne wanted c (keyOf (p ++ [x]) e.isDir, e) =
      makeParents (keyOf (p ++ [x]) e.isDir).length (put c (keyOf (p ++ [x]) e.isDir) e) (parentName p) := by
    unfold mergeOne
    simp only
    rw [if_pos hw, parent_key _ hx]
  rw [hone]
  obtain ⟨m1, m2⟩ := hm
  have split_iff : ∀ r, (∃ y t, p ++ [x] = r ++ y :: t) ↔ r <+: p := by
    intro r
    constructor
    · rintro ⟨y, t, h⟩
      have : r <+: p ++ [x] := ⟨y :: t, h.symm⟩
      rcases List.prefix_concat_iff.1 this with e | e
      · have := congrArg List.length h; rw [e] at this; simp at this
      · exact e
    · rintro ⟨t, rfl⟩
      cases t with
      | nil => exact ⟨x, [], by simp⟩
      | cons y t => exact ⟨y, t ++ [x], by simp⟩
  refine ⟨?_, ?_, ?_⟩
  · rw [m2, lookup_put, if_pos rfl]
    rintro ⟨h, -⟩
    rw [lookup_put, if_pos rfl] at h; cases h
  · intro r y t h hr hc
    have hrp := (split_iff r).1 ⟨y, t, h⟩
    exact m1 _ ⟨by rw [lookup_put, if_neg (hne r hr hrp)]; exact hc, r, hr, hrp, rfl⟩
  · intro k hk hc
    rw [m2, lookup_put, if_neg hk]
    rintro ⟨h, r, hr, hrp, rfl⟩
    rw [lookup_put, if_neg hk] at h
    obtain ⟨y, t, h'⟩ := (split_iff r).2 hrp
    exact hc h ⟨r, y, t, h', hr, rfl⟩

/-- Merging the files of `src` one by one, in any order. -/
theorem mergeAll {wanted : Key → Bool} : ∀ (src dest : Files), (src.map (·.1)).Nodup → (∀ x ∈ src, ∃ q : Path, q ≠ [] ∧ (∀ x ∈ q, Proper x) ∧ x.1 = keyOf q x.2.isDir) →
    Named dest → Listed dest → (dest.map (·.1)).Nodup →
    Merged wanted dest src (src.foldl (mergeOne wanted) dest) ∧ Named (src.foldl (mergeOne wanted) dest) ∧ Listed (src.foldl (mergeOne wanted) dest) ∧
      ((src.foldl (mergeOne wanted) dest).map (·.1)).Nodup := by
  intro src
  induction src with
  | nil =>
    intro dest _ _ hN hL hU
    refine ⟨⟨?_, ?_, ?_, ?_⟩, hN, hL, hU⟩
    · intro k _ h; cases h
    · intro k _ _; rfl
    · rintro q _ _ _ ⟨d, b, _, _, _, h⟩; cases h
    · intro k _ h _; exact h
  | cons x src ih =>
    intro dest hn hs hN hL hU
    obtain ⟨k0, e⟩ := x
    obtain ⟨q, hq, hp, hk⟩ := hs (k0, e) (by simp)
    simp only at hk
    subst hk
    simp only [List.map_cons, List.nodup_cons] at hn
    have hfresh : src.lookup (keyOf q e.isDir) = none := by
      cases h : src.lookup (keyOf q e.isDir) with
      | none => rfl
      | some e' => exact absurd (List.mem_map.2 ⟨_, lookup_mem h, rfl⟩) hn.1
    have hlook : ∀ k, k ≠ keyOf q e.isDir → List.lookup k ((keyOf q e.isDir, e) :: src) = src.lookup k := by
      intro k hk
      rw [List.lookup_cons, show (k == keyOf q e.isDir) = false by simpa using hk]
    have hlook0 : List.lookup (keyOf q e.isDir) ((keyOf q e.isDir, e) :: src) = some e := by
      rw [List.lookup_cons]; simp
    rw [List.foldl_cons]
    by_cases hw : wanted (keyOf q e.isDir) = true
    · obtain ⟨o1, o2, o3⟩ := mergeOne_spec (wanted := wanted) hL hq hp e hw
      have hU1 : ((mergeOne wanted dest (keyOf q e.isDir, e)).map (·.1)).Nodup := by
        unfold mergeOne
        rw [if_pos hw]
        exact keys_makeParents _ (keys_put hU)
      generalize hd1 : mergeOne wanted dest (keyOf q e.isDir, e) = dest1 at o1 o2 o3 hU1 ⊢
      have mono : ∀ k, (dest.lookup k).isSome → (dest1.lookup k).isSome := by
        intro k h
        by_cases hk : k = keyOf q e.isDir
        · rw [hk, o1]; rfl
        · rw [o3 k hk (fun h' => by rw [h'] at h; cases h)]; exact h
      have cases1 : ∀ k, k ≠ keyOf q e.isDir → dest1.lookup k = dest.lookup k ∨
          (dest.lookup k = none ∧ dest1.lookup k = some .dir ∧ ∃ r x t, q = r ++ x :: t ∧ r ≠ [] ∧ k = keyOf r true) := by
        intro k hk
        by_cases h : dest.lookup k = none ∧ ∃ r x t, q = r ++ x :: t ∧ r ≠ [] ∧ k = keyOf r true
        · obtain ⟨h1, r, x, t, h2, h3, rfl⟩ := h
          exact .inr ⟨h1, o2 r x t h2 h3 h1, r, x, t, h2, h3, rfl⟩
        · exact .inl (o3 k hk fun h1 h2 => h ⟨h1, h2⟩)
      have hN1 : Named dest1 := by
        intro k e' h
        by_cases hk : k = keyOf q e.isDir
        · rw [hk, o1] at h
          obtain rfl := Option.some.inj h
          exact ⟨q, hq, hp, hk⟩
        · rcases cases1 k hk with h' | ⟨-, h', r, x, t, h2, h3, h4⟩
          · exact hN k e' (h' ▸ h)
          · rw [h'] at h
            obtain rfl := Option.some.inj h
            exact ⟨r, h3, fun y hy => hp y (by rw [h2]; simp [hy]), h4⟩
      have up : ∀ r x t, q = r ++ x :: t → r ≠ [] → (dest1.lookup (keyOf r true)).isSome := by
        intro r x t h1 h2
        cases h : dest.lookup (keyOf r true) with
        | none => rw [o2 r x t h1 h2 h]; rfl
        | some e' => exact mono _ (by rw [h]; rfl)
      have hL1 : Listed dest1 := by
        intro r x b hr hpr h
        by_cases hk : keyOf (r ++ [x]) b = keyOf q e.isDir
        · have := (keyOf_inj (by simp) hq hpr hp hk).1
          exact up r x [] this.symm hr
        · rcases cases1 _ hk with h' | ⟨-, -, r', y, t, h2, h3, h4⟩
          · exact mono _ (hL r x b hr hpr (h' ▸ h))
          · have := (keyOf_inj (by simp) h3 hpr (fun z hz => hp z (by rw [h2]; simp [hz])) h4).1
            exact up r x (y :: t) (by rw [h2, ← this]; simp) hr
      obtain ⟨m, hrest⟩ := ih dest1 hn.2 (fun x hx => hs x (by simp [hx])) hN1 hL1 hU1
      refine ⟨?_, hrest⟩
      have hne : ∀ k, (wanted k = false ∨ List.lookup k ((keyOf q e.isDir, e) :: src) = none) → k ≠ keyOf q e.isDir := by
        rintro k h rfl
        rcases h with h | h
        · rw [hw] at h; cases h
        · rw [hlook0] at h; cases h
      constructor
      · intro k h1 h2
        by_cases hk : k = keyOf q e.isDir
        · subst hk
          rw [m.kept _ (.inr hfresh) (by rw [o1]; rfl), o1, hlook0]
        · rw [hlook k hk] at h2 ⊢
          exact m.taken k h1 h2
      · intro k h1 h2
        have hk := hne k h1
        rw [hlook k hk] at h1
        rw [m.kept k h1 (mono k h2), o3 k hk (fun h' => by rw [h'] at h2; cases h2)]
      · intro r hr h1 h2 ⟨d, b, hd, hpd, hwd, hsd⟩
        have hk := hne _ h1
        rw [hlook _ hk] at h1
        have strict : (∃ r' x t, q = r' ++ x :: t ∧ r' ≠ [] ∧ keyOf r true = keyOf r' true) →
            List.lookup (keyOf r true) (List.foldl (mergeOne wanted) dest1 src) = some .dir := by
          rintro ⟨r', x, t, h3, h4, h5⟩
          have h6 := o2 r' x t h3 h4 (h5 ▸ h2)
          rw [← h5] at h6
          rw [m.kept _ h1 (by rw [h6]; rfl), h6]
        by_cases hkd : keyOf (r ++ d) b = keyOf q e.isDir
        · have := (keyOf_inj (by simp [hr]) hq hpd hp hkd).1
          cases d with
          | nil => exact absurd rfl hd
          | cons x t => exact strict ⟨r, x, t, this.symm, hr, rfl⟩
        · rcases cases1 _ hk with h' | ⟨-, -, h'⟩
          · refine m.made r hr h1 (by rw [h', h2]) ⟨d, b, hd, hpd, hwd, ?_⟩
            rwa [hlook _ hkd] at hsd
          · exact strict h'
      · intro k h1 h2 h3
        have hk := hne k h1
        rw [hlook k hk] at h1
        refine m.none k h1 ?_ ?_
        · rcases cases1 k hk with h' | ⟨-, -, r, x, t, h4, h5, h6⟩
          · rw [h', h2]
          · refine absurd ⟨r, h5, h6, x :: t, e.isDir, by simp, ?_, ?_, ?_⟩ h3
            · rw [← h4]; exact hp
            · rw [← h4]; exact hw
            · rw [← h4, hlook0]; rfl
        · rintro ⟨r, h4, h5, d, b, h6, h7, h8, h9⟩
          refine h3 ⟨r, h4, h5, d, b, h6, h7, h8, ?_⟩
          by_cases hkd : keyOf (r ++ d) b = keyOf q e.isDir
          · rw [hkd, hlook0]; rfl
          · rw [hlook _ hkd]; exact h9
    · have h1 : mergeOne wanted dest (keyOf q e.isDir, e) = dest := by unfold mergeOne; rw [if_neg hw]
      rw [h1]
      obtain ⟨m, r⟩ := ih dest hn.2 (fun x hx => hs x (by simp [hx])) hN hL hU
      refine ⟨?_, r⟩
      have hne : ∀ k, wanted k = true → k ≠ keyOf q e.isDir := fun k h h' => hw (h' ▸ h)
      have hor : ∀ k, (wanted k = false ∨ List.lookup k ((keyOf q e.isDir, e) :: src) = none) → (wanted k = false ∨ src.lookup k = none) := by
        intro k h
        by_cases hk : k = keyOf q e.isDir
        · exact .inr (hk ▸ hfresh)
        · rwa [hlook k hk] at h
      have hab : ∀ r, Above wanted ((keyOf q e.isDir, e) :: src) r ↔ Above wanted src r := by
        intro r
        constructor
        · rintro ⟨d, b, h1, h2, h3, h4⟩
          rw [hlook _ (hne _ h3)] at h4
          exact ⟨d, b, h1, h2, h3, h4⟩
        · rintro ⟨d, b, h1, h2, h3, h4⟩
          refine ⟨d, b, h1, h2, h3, ?_⟩
          rw [hlook _ (hne _ h3)]
          exact h4
      constructor
      · intro k h1 h2
        rw [hlook k (hne k h1)] at h2 ⊢
        exact m.taken k h1 h2
      · intro k h1 h2; exact m.kept k (hor k h1) h2
      · intro r h1 h2 h3 h4; exact m.made r h1 (hor _ h2) h3 ((hab r).1 h4)
      · intro k h1 h2 h3
        refine m.none k (hor k h1) h2 ?_
        rintro ⟨r, h4, h5, h6⟩
        exact h3 ⟨r, h4, h5, (hab r).2 h6⟩

end Verif.CartDir
