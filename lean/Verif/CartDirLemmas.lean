import Verif.Spec.CartDir
/-
Lemmas for C77.
-/
namespace Verif.CartDir

theorem lookup_put (f : Files) (k k' : Key) (e : Entry) : (put f k e).lookup k' = if k' = k then some e else f.lookup k' := by
  induction f with
  | nil =>
    by_cases h : k' = k
    · simp [put, h]
    · simp only [put, List.lookup_cons, List.lookup_nil, if_neg h, show (k' == k) = false by simpa using h]
  | cons x f ih =>
    obtain ⟨a, b⟩ := x
    by_cases ha : a = k
    · subst ha
      by_cases h : k' = a <;> simp [put, List.lookup, h]
      rw [show (k' == a) = false by simpa using h]
    · rw [put, if_neg ha]
      simp only [List.lookup]
      by_cases h : k' = a
      · subst h; simp [ha]
      · rw [show (k' == a) = false by simpa using h]; exact ih

theorem get_set (fs : Fs) (p q : Path) (e : Entry) : (fs.set p e).get q = if q = p then some e else fs.get q := by
  unfold Fs.get Fs.set
  by_cases h : q = p
  · simp [List.lookup, h]
  · rw [if_neg h, List.lookup, show (q == p) = false by simpa using h]
    induction fs with
    | nil => rfl
    | cons x fs ih =>
      obtain ⟨a, b⟩ := x
      by_cases ha : a = p
      · subst ha
        rw [List.filter_cons_of_neg (by simp), List.lookup, show (q == a) = false by simpa using h]; exact ih
      · rw [List.filter_cons_of_pos (by simpa using ha), List.lookup, List.lookup]
        cases hq : q == a <;> simp only [ih]

theorem get_rmtree (fs : Fs) (p q : Path) : (fs.rmtree p).get q = if p.isPrefixOf q then none else fs.get q := by
  unfold Fs.get Fs.rmtree
  induction fs with
  | nil => simp
  | cons x fs ih =>
    obtain ⟨a, b⟩ := x
    by_cases ha : p.isPrefixOf a
    · rw [List.filter_cons_of_neg (by simpa using ha), ih]
      by_cases hq : p.isPrefixOf q
      · simp [hq]
      · rw [if_neg hq, if_neg hq, List.lookup, show (q == a) = false by simp; rintro rfl; exact hq ha]
    · rw [List.filter_cons_of_pos (by simp only [Bool.not_eq_true] at ha; simp only [ha]; rfl), List.lookup, List.lookup, ih]
      cases hq : q == a
      · rfl
      · have : q = a := by simpa using hq
        subst this; simp [ha]

theorem mem_of_get {fs : Fs} {p : Path} {e : Entry} (h : fs.get p = some e) : (p, e) ∈ fs := by
  unfold Fs.get at h
  induction fs with
  | nil => cases h
  | cons x fs ih =>
    obtain ⟨a, b⟩ := x
    rw [List.lookup] at h
    cases hq : p == a with
    | true => rw [hq] at h; have : p = a := by simpa using hq
              subst this; simp [Option.some.inj h]
    | false => rw [hq] at h; exact List.mem_cons_of_mem _ (ih h)

theorem get_of_mem {fs : Fs} {p : Path} {e : Entry} (h : (p, e) ∈ fs) : (fs.get p).isSome := by
  unfold Fs.get
  induction fs with
  | nil => cases h
  | cons x fs ih =>
    obtain ⟨a, b⟩ := x
    rw [List.lookup]
    cases hq : p == a with
    | true => rfl
    | false =>
      rcases List.mem_cons.1 h with h | h
      · injection h with h1 h2; subst h1; simp at hq
      · exact ih h

theorem mem_names {fs : Fs} {p : Path} {x : Name} : x ∈ fs.names p ↔ (fs.get (p ++ [x])).isSome := by
  unfold Fs.names
  rw [List.mem_filterMap]
  constructor
  · rintro ⟨⟨a, e⟩, ha, h⟩
    simp only at h
    split at h
    · cases h
    · rename_i hn
      simp only [Bool.or_eq_true, not_or, bne_iff_ne, ne_eq, Decidable.not_not, Bool.not_eq_true, List.isEmpty_eq_false_iff] at hn
      have : a = p ++ [x] := by
        rw [← hn.2]
        have := List.dropLast_concat_getLast hn.1
        rw [List.getLast?_eq_some_getLast hn.1] at h
        rw [← Option.some.inj h]; exact this.symm
      subst this
      exact get_of_mem ha
  · intro h
    obtain ⟨e, he⟩ := Option.isSome_iff_exists.1 h
    exact ⟨_, mem_of_get he, by simp⟩

/-! ### Names -/

theorem segs_proper {x : Name} (h : 47 ∉ x) : segs x = [x] := by
  induction x with
  | nil => rfl
  | cons c x ih =>
    simp only [List.mem_cons, not_or] at h
    rw [segs, if_neg (by omega), ih h.2]

theorem segs_slash (a b : List Nat) : segs (a ++ 47 :: b) = segs a ++ segs b := by
  induction a with
  | nil => simp [segs]
  | cons c a ih =>
    rw [List.cons_append, segs, segs]
    by_cases h : c = 47
    · rw [if_pos h, if_pos h, ih]; rfl
    · rw [if_neg h, if_neg h, ih]
      cases ha : segs a with
      | nil =>
        exfalso
        cases a with
        | nil => simp [segs] at ha
        | cons d a =>
          rw [segs] at ha
          split at ha
          · cases ha
          · split at ha <;> cases ha
      | cons w ws => rfl

theorem step_proper {p : Path} {x : Name} (h : Proper x) : step p x = p ++ [x] := by
  unfold step
  rw [if_neg (fun h' => h'.elim h.1 h.2.2.1), if_neg h.2.2.2]

theorem head_ne {x : Name} (h : 47 ∉ x) : x.head? ≠ some 47 := by
  cases x with
  | nil => simp
  | cons c x => simp only [List.head?_cons]; intro e; injection e with e; exact h (by simp [e])

theorem join_proper {p : Path} {x : Name} (h : Proper x) : join p x = p ++ [x] := by
  unfold join
  rw [if_neg (head_ne h.2.1), segs_proper h.2.1]
  simp [step_proper h]

theorem join_proper_dir {p : Path} {x : Name} (h : Proper x) : join p (x ++ [47]) = p ++ [x] := by
  unfold join
  rw [if_neg, segs_slash, segs_proper h.2.1]
  · simp only [segs, List.singleton_append, List.foldl_cons, List.foldl_nil, step_proper h]; simp [step]
  · cases x with
    | nil => exact absurd rfl h.1
    | cons c x => exact head_ne (x := c :: x) h.2.1

/-- A name of a directory, as kept in a cart: nothing for the top, and a final slash otherwise. -/
def DirName (k : Key) : Prop := k = [] ∨ ∃ j, k = j ++ [47]

theorem dirKey_name (k : Key) : DirName (dirKey k) := by
  unfold dirKey DirName
  split
  · exact .inr ⟨_, rfl⟩
  · rename_i h
    by_cases hk : k = []
    · exact .inl hk
    · refine .inr ⟨k.dropLast, ?_⟩
      have hl : k.getLast? = some 47 := Decidable.byContradiction fun h' => h ⟨hk, h'⟩
      have := List.dropLast_concat_getLast hk
      rw [List.getLast?_eq_some_getLast hk] at hl
      rw [← Option.some.inj hl]; exact this.symm

theorem dirKey_of {k : Key} (h : DirName k) : dirKey k = k := by
  unfold dirKey
  rcases h with rfl | ⟨j, rfl⟩ <;> simp

theorem basename_of {k : Key} (h : DirName k) {x : List Nat} (hx : 47 ∉ x) : basename (k ++ x) = x := by
  unfold basename
  rcases h with rfl | ⟨j, rfl⟩
  · simp [segs_proper hx]
  · rw [List.append_assoc, List.singleton_append, segs_slash, segs_proper hx]; simp

/-! ### Keys -/

theorem keyOf_cons (x : Name) (q : Path) (d : Bool) (h : q ≠ []) : keyOf (x :: q) d = x ++ 47 :: keyOf q d := by
  cases q with
  | nil => exact absurd rfl h
  | cons y q => rfl

theorem keyOf_ne {q : Path} {d : Bool} (hq : q ≠ []) (hp : ∀ x ∈ q, Proper x) : keyOf q d ≠ [] := by
  cases q with
  | nil => exact absurd rfl hq
  | cons x q =>
    have := (hp x (by simp)).1
    cases q with
    | nil => cases d <;> simp [keyOf, this]
    | cons y q => simp [keyOf]

/-- Below a directory. -/
theorem keyOf_append (p q : Path) (d : Bool) (hp : p ≠ []) (hq : q ≠ []) : keyOf (p ++ q) d = keyOf p true ++ keyOf q d := by
  induction p with
  | nil => exact absurd rfl hp
  | cons x p ih =>
    cases p with
    | nil => rw [List.singleton_append, keyOf_cons _ _ _ hq]; simp [keyOf]
    | cons y p =>
      rw [List.cons_append, keyOf_cons _ _ _ (by simp), ih (by simp), keyOf_cons _ (y :: p) _ (by simp)]
      simp

theorem dirName_keyOf (q : Path) : DirName (keyOf q true) := by
  induction q with
  | nil => exact .inl rfl
  | cons x q ih =>
    cases q with
    | nil => exact .inr ⟨x, rfl⟩
    | cons y q =>
      rw [keyOf_cons _ _ _ (by simp)]
      rcases ih with h | ⟨j, h⟩
      · exact .inr ⟨x, by rw [h]⟩
      · exact .inr ⟨x ++ 47 :: j, by rw [h]; simp⟩

theorem first_slash {x y a b : List Nat} (hx : 47 ∉ x) (hy : 47 ∉ y) (h : x ++ 47 :: a = y ++ 47 :: b) : x = y ∧ a = b := by
  induction x generalizing y with
  | nil =>
    cases y with
    | nil => simpa using h
    | cons c y => simp only [List.nil_append, List.cons_append, List.cons.injEq] at h; exact absurd (by simp [h.1]) hy
  | cons c x ih =>
    cases y with
    | nil => simp only [List.nil_append, List.cons_append, List.cons.injEq] at h; exact absurd (by simp [h.1]) hx
    | cons d y =>
      simp only [List.cons_append, List.cons.injEq] at h
      simp only [List.mem_cons, not_or] at hx hy
      have := ih hx.2 hy.2 h.2
      simp [h.1, this]

theorem no_slash {x y a : List Nat} (hx : 47 ∉ x) (h : x = y ++ 47 :: a) : False := hx (by rw [h]; simp)

theorem keyOf_inj : ∀ {p q : Path} {d d' : Bool}, p ≠ [] → q ≠ [] → (∀ x ∈ p, Proper x) → (∀ x ∈ q, Proper x) → keyOf p d = keyOf q d' → p = q ∧ d = d'
  | [], _, _, _, h, _, _, _, _ => absurd rfl h
  | _, [], _, _, _, h, _, _, _ => absurd rfl h
  | [x], [y], d, d', _, _, hp, hq, h => by
    have hx := (hp x (by simp)).2.1
    have hy := (hq y (by simp)).2.1
    cases d <;> cases d' <;> simp only [keyOf, if_true, if_false, Bool.false_eq_true] at h
    · simp [h]
    · exact (no_slash hx h).elim
    · exact (no_slash hy h.symm).elim
    · simp [(first_slash hx hy h).1]
  | [x], y :: z :: q, d, d', _, _, hp, hq, h => by
    have hx := (hp x (by simp)).2.1
    have hy := (hq y (by simp)).2.1
    rw [keyOf_cons y _ _ (by simp)] at h
    cases d <;> simp only [keyOf, if_true, if_false, Bool.false_eq_true] at h
    · exact (no_slash hx h).elim
    · exact absurd (first_slash hx hy h).2.symm (keyOf_ne (by simp) fun w hw => hq w (by simp [List.mem_cons.1 hw]))
  | x :: z :: p, [y], d, d', _, _, hp, hq, h => by
    have hx := (hp x (by simp)).2.1
    have hy := (hq y (by simp)).2.1
    rw [keyOf_cons x _ _ (by simp)] at h
    cases d' <;> simp only [keyOf, if_true, if_false, Bool.false_eq_true] at h
    · exact (no_slash hy h.symm).elim
    · exact absurd (first_slash hx hy h).2 (keyOf_ne (by simp) fun w hw => hp w (by simp [List.mem_cons.1 hw]))
  | x :: z :: p, y :: w :: q, d, d', _, _, hp, hq, h => by
    have hx := (hp x (by simp)).2.1
    have hy := (hq y (by simp)).2.1
    rw [keyOf_cons x _ _ (by simp), keyOf_cons y _ _ (by simp)] at h
    obtain ⟨h1, h2⟩ := first_slash hx hy h
    have := keyOf_inj (by simp) (by simp) (fun w hw => hp w (by simp [List.mem_cons.1 hw])) (fun w hw => hq w (by simp [List.mem_cons.1 hw])) h2
    rw [h1, this.1]; exact ⟨rfl, this.2⟩

end Verif.CartDir
