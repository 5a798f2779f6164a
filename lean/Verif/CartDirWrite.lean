import Verif.CartDirLemmas
/-
Writing a directory (C77).
-/
namespace Verif.CartDir

/-! ### Nothing elsewhere is touched -/

/-- Nothing outside `p` changes, except that missing directories above `p` are made. -/
def Safe (p : Path) (fs fs' : Fs) : Prop := ∀ s, ¬ p <+: s → fs'.get s = fs.get s ∨ (s <+: p ∧ fs.get s = none ∧ fs'.get s = some .dir)

theorem Safe.refl (p : Path) (fs : Fs) : Safe p fs fs := fun _ _ => .inl rfl

theorem Safe.trans {p : Path} {a b c : Fs} (h1 : Safe p a b) (h2 : Safe p b c) : Safe p a c := by
  intro s hs
  rcases h1 s hs with h | ⟨h, ha, hb⟩ <;> rcases h2 s hs with h' | ⟨h', hb', hc⟩
  · exact .inl (h'.trans h)
  · exact .inr ⟨h', h ▸ hb', hc⟩
  · exact .inr ⟨h, ha, h'.trans hb⟩
  · rw [hb] at hb'; cases hb'

theorem mkdirs_get {xs : List Name} : ∀ {fs fs' : Fs} {p : Path}, fs.mkdirs xs p = some fs' → ∀ s, fs'.get s = fs.get s ∨
    (s <+: p ++ xs ∧ fs.get s = none ∧ fs'.get s = some .dir) := by
  induction xs with
  | nil => intro fs fs' p h s; rw [Fs.mkdirs] at h; exact .inl (by rw [Option.some.inj h])
  | cons x xs ih =>
    intro fs fs' p h s
    rw [Fs.mkdirs] at h
    have e : p ++ x :: xs = p ++ [x] ++ xs := by simp
    split at h
    · cases h
    · rw [e]; exact ih h s
    · rename_i hn
      rw [e]
      rcases ih h s with h' | ⟨h1, h2, h3⟩
      · rw [get_set] at h'
        by_cases hs : s = p ++ [x]
        · rw [if_pos hs] at h'
          exact .inr ⟨hs ▸ List.prefix_append _ _, hs ▸ hn, h'⟩
        · rw [if_neg hs] at h'; exact .inl h'
      · rw [get_set] at h2
        split at h2
        · cases h2
        · exact .inr ⟨h1, h2, h3⟩

theorem mkdirs_root {xs : List Name} : ∀ {fs fs' : Fs} {p : Path}, fs.mkdirs xs p = some fs' → fs'.get [] = fs.get [] := by
  induction xs with
  | nil => intro fs fs' p h; rw [Fs.mkdirs] at h; rw [Option.some.inj h]
  | cons x xs ih =>
    intro fs fs' p h
    rw [Fs.mkdirs] at h
    split at h
    · cases h
    · exact ih h
    · rw [ih h, get_set, if_neg (by simp)]

theorem ensureDir_get {fs fs' : Fs} {p : Path} (h : fs.ensureDir p = some fs') (s : Path) : fs'.get s = fs.get s ∨
    (s <+: p ∧ fs.get s = none ∧ fs'.get s = some .dir) := by
  unfold Fs.ensureDir at h
  split at h
  · exact .inl (by rw [Option.some.inj h])
  · exact mkdirs_get h s

theorem prefix_cases {s p q : Path} (h1 : s <+: q) (h2 : p <+: q) : p <+: s ∨ s <+: p := by
  rcases Nat.le_total p.length s.length with h | h
  · exact .inl (List.prefix_of_prefix_length_le h2 h1 h)
  · exact .inr (List.prefix_of_prefix_length_le h1 h2 h)

theorem ensureDir_safe {fs fs' : Fs} {p p' : Path} (hp : p <+: p') (h : fs.ensureDir p' = some fs') : Safe p fs fs' := by
  intro s hs
  rcases ensureDir_get h s with h' | ⟨h1, h2⟩
  · exact .inl h'
  · exact .inr ⟨(prefix_cases h1 hp).resolve_left hs, h2⟩

theorem write_safe {fs : Fs} {p p' : Path} (hp : p <+: p') (d : List Nat) : Safe p fs (fs.write p' d).1 := by
  unfold Fs.write
  split
  · exact .refl _ _
  · intro s hs
    rw [get_set, if_neg]
    · exact .inl rfl
    · rintro rfl; exact hs hp

theorem join_noslash {p : Path} {x : List Nat} (h : 47 ∉ x) : join p x = step p x := by
  unfold join
  rw [if_neg (head_ne h), segs_proper h]; rfl

theorem join_twice {p : Path} {x : List Nat} (h : 47 ∉ x) (hi : p <+: join p x) : p <+: join (join p x) x := by
  rw [join_noslash h] at hi
  rw [join_noslash h, join_noslash h]
  unfold step at hi ⊢
  split
  · exact List.prefix_refl _
  · rename_i h1
    rw [if_neg h1] at hi
    split
    · rename_i h2
      rw [if_pos h2] at hi
      have := hi.length_le
      rw [List.length_dropLast] at this
      have : p = [] := List.length_eq_zero_iff.1 (by
        cases p with
        | nil => rfl
        | cons a p => simp at this; omega)
      subst this; simp
    · exact (List.prefix_append _ _).trans (List.prefix_append _ _)

theorem children_safe {p0 p : Path} (hp : p0 <+: p) {k : Key} (hk : DirName k) {go : Fs → Path → Key → Entry → Fs × Bool}
    (hgo : ∀ fs x e, p <+: join p x → (e.isDir = false → 47 ∉ x) → Safe p0 fs (go fs (join p x) (k ++ x) e).1) : ∀ (L : Files) (fs : Fs),
    Safe p0 fs (children go p k L fs).1
  | [], fs => .refl _ _
  | (ck, e) :: L, fs => by
    rw [children]
    by_cases h : (k.isPrefixOf ck && (ck.drop k.length).count 47 == (if e.isDir then 1 else 0)) = true
    · rw [if_pos h]
      simp only [Bool.and_eq_true, List.isPrefixOf_iff_prefix, beq_iff_eq] at h
      obtain ⟨⟨x, rfl⟩, hc⟩ := h
      simp only [List.drop_left] at hc ⊢
      split
      · rename_i hi
        simp only [inside, List.isPrefixOf_iff_prefix] at hi
        have h1 := hgo fs x e hi (fun he => by rw [he] at hc; exact List.count_eq_zero.1 hc)
        split
        · exact h1.trans (children_safe hp hk hgo L _)
        · exact h1
      · exact .refl _ _
    · rw [if_neg h]; exact children_safe hp hk hgo L fs

theorem writeFile_safe {c : Files} {p0 p : Path} (hp : p0 <+: p) {k : Key} (hk : DirName k) {x : List Nat} (hx : 47 ∉ x) (hi : p <+: join p x) (fs : Fs) :
    Safe p0 fs (writeFile c fs (join p x) (k ++ x)).1 := by
  unfold writeFile
  rw [basename_of hk hx]
  simp only
  split
  · refine write_safe (hp.trans ?_) _
    split
    · exact join_twice hx hi
    · exact hi
  · exact .refl _ _

theorem writeDir_safe {c : Files} {p0 : Path} : ∀ (n : Nat) (fs : Fs) (p : Path) (k : Key), p0 <+: p → Safe p0 fs (writeDir c n fs p k).1
  | 0, fs, _, _, _ => .refl _ _
  | n + 1, fs, p, k, hp => by
    rw [writeDir]
    split
    · exact .refl _ _
    · rename_i fs1 h1
      refine (ensureDir_safe hp h1).trans (children_safe hp (dirKey_name k) ?_ c fs1)
      intro fs x e hi hx
      cases e with
      | dir => exact writeDir_safe n fs _ _ (hp.trans hi)
      | file d => exact writeFile_safe hp (dirKey_name k) (hx rfl) hi fs

/-! ### What is written -/

/-- What the cart has at a path. -/
def cartAt (c : Files) (q : Path) : Option Entry :=
  if ∀ x ∈ q, Proper x then if (keyOf q true, Entry.dir) ∈ c then some .dir else c.lookup (keyOf q false) else none

theorem lookup_mem {c : Files} {k : Key} {e : Entry} (h : c.lookup k = some e) : (k, e) ∈ c := by
  induction c with
  | nil => cases h
  | cons x c ih =>
    obtain ⟨a, b⟩ := x
    rw [List.lookup] at h
    cases hq : k == a with
    | true => rw [hq] at h; have : k = a := by simpa using hq
              subst this; simp [Option.some.inj h]
    | false => rw [hq] at h; exact List.mem_cons_of_mem _ (ih h)

theorem lookup_of {c : Files} (hu : (c.map (·.1)).Nodup) {k : Key} {e : Entry} (h : (k, e) ∈ c) : c.lookup k = some e := by
  induction c with
  | nil => cases h
  | cons x c ih =>
    obtain ⟨a, b⟩ := x
    simp only [List.map_cons, List.nodup_cons] at hu
    rw [List.lookup]
    rcases List.mem_cons.1 h with h | h'
    · injection h with h1 h2; subst h1; subst h2; simp
    · rw [show (k == a) = false by simp; rintro rfl; exact hu.1 (List.mem_map.2 ⟨(k, e), h', rfl⟩)]
      exact ih hu.2 h'

theorem cartAt_iff {c : Files} (hf : Fits c) {q : Path} (hq : q ≠ []) {e : Entry} :
    cartAt c q = some e ↔ (∀ x ∈ q, Proper x) ∧ (keyOf q e.isDir, e) ∈ c := by
  unfold cartAt
  by_cases hp : ∀ x ∈ q, Proper x
  · rw [if_pos hp]
    split
    · rename_i hd
      constructor
      · intro h; obtain rfl := Option.some.inj h; exact ⟨hp, hd⟩
      · rintro ⟨-, h⟩
        cases e with
        | dir => rfl
        | file d => exact absurd h (hf.one q d hp hd)
    · rename_i hd
      constructor
      · intro h
        have hm := lookup_mem h
        cases e with
        | file d => exact ⟨hp, hm⟩
        | dir =>
          obtain ⟨q', hq', hp', e'⟩ := hf.names _ _ hm
          have := (keyOf_inj hq hq' hp hp' e').2
          cases this
      · rintro ⟨-, h⟩
        cases e with
        | dir => exact absurd h hd
        | file d => exact lookup_of hf.unique h
  · rw [if_neg hp]
    simp [hp]

theorem Fits.above {c : Files} (hf : Fits c) : ∀ (d q : Path), q ≠ [] → d ≠ [] → (cartAt c (q ++ d)).isSome → (keyOf q true, Entry.dir) ∈ c
  | [], _, _, hd, _ => absurd rfl hd
  | [x], q, hq, _, h => by
    obtain ⟨e, he⟩ := Option.isSome_iff_exists.1 h
    have := (cartAt_iff hf (by simp)).1 he
    exact hf.parents q x e hq this.1 this.2
  | x :: y :: d, q, hq, _, h => by
    have h1 : (cartAt c (q ++ [x] ++ y :: d)).isSome := by simpa using h
    have h2 := hf.above (y :: d) (q ++ [x]) (by simp) (by simp) h1
    obtain ⟨e, he⟩ := Option.isSome_iff_exists.1 h
    have hp := ((cartAt_iff hf (by simp)).1 he).1
    exact hf.parents q x .dir hq (fun z hz => hp z (by
      rcases List.mem_append.1 hz with hz | hz
      · simp [hz]
      · simp only [List.mem_singleton] at hz; simp [hz])) h2

/-- All directories on the way to `p` exist. -/
def DirsTo (fs : Fs) (p : Path) : Prop := ∀ s, s ≠ [] → s <+: p → fs.get s = some .dir

theorem DirsTo.isDir {fs : Fs} {p : Path} (h : DirsTo fs p) : fs.isDir p = true := by
  unfold Fs.isDir
  cases p with
  | nil => rfl
  | cons x p => rw [h _ (by simp) (List.prefix_refl _)]; rfl

theorem mkdirs_some {xs : List Name} : ∀ {fs : Fs} {p : Path}, (∀ s, s ≠ [] → s <+: p → fs.get s = some .dir) →
    (∀ s, s ≠ [] → s <+: p ++ xs → ∀ d, fs.get s ≠ some (.file d)) → ∃ fs', fs.mkdirs xs p = some fs' ∧ DirsTo fs' (p ++ xs) := by
  induction xs with
  | nil => intro fs p h _; exact ⟨fs, rfl, by simpa [DirsTo] using h⟩
  | cons x xs ih =>
    intro fs p h hn
    have e : p ++ x :: xs = p ++ [x] ++ xs := by simp
    rw [e] at hn ⊢
    have hx := hn (p ++ [x]) (by simp) (List.prefix_append _ _)
    rw [Fs.mkdirs]
    split
    · rename_i d hd; exact absurd hd (hx d)
    · rename_i hd
      refine ih (fun s hs hp => ?_) hn
      rcases List.prefix_concat_iff.1 hp with hp | hp
      · exact hp ▸ hd
      · exact h s hs hp
    · refine ih (fun s hs hp => ?_) (fun s hs hp d => ?_)
      · rw [get_set]
        split
        · rfl
        · rcases List.prefix_concat_iff.1 hp with hp | hp
          · contradiction
          · exact h s hs hp
      · rw [get_set]
        split
        · simp
        · exact hn s hs hp d

theorem prefix_self {P d : Path} (h : P ++ d <+: P) : d = [] := by
  have := h.length_le
  rw [List.length_append] at this
  exact List.length_eq_zero_iff.1 (by omega)

/-! ### Which files are directly in a directory -/

theorem keyOf_cons_true (y : Name) (q : Path) : keyOf (y :: q) true = y ++ 47 :: keyOf q true := by
  cases q with
  | nil => simp [keyOf]
  | cons z q => rfl

theorem count_keyOf : ∀ (q : Path) (b : Bool), q ≠ [] → (∀ x ∈ q, Proper x) → (keyOf q b).count 47 = q.length - 1 + (if b then 1 else 0)
  | [], _, h, _ => absurd rfl h
  | [x], b, _, hp => by
    have : x.count 47 = 0 := List.count_eq_zero.2 (hp x (by simp)).2.1
    cases b <;> simp [keyOf, this]
  | x :: y :: q, b, _, hp => by
    have : x.count 47 = 0 := List.count_eq_zero.2 (hp x (by simp)).2.1
    rw [keyOf_cons x _ _ (by simp), List.count_append, List.count_cons, this, count_keyOf (y :: q) b (by simp) (fun z hz => hp z (by simp [List.mem_cons.1 hz]))]
    simp; omega

theorem prefix_slash {x y a b : List Nat} (hx : 47 ∉ x) (hy : 47 ∉ y) : x ++ 47 :: a <+: y ++ 47 :: b ↔ x = y ∧ a <+: b := by
  constructor
  · rintro ⟨t, h⟩
    rw [List.append_assoc, List.cons_append] at h
    obtain ⟨h1, h2⟩ := first_slash hx hy h
    exact ⟨h1, t, h2⟩
  · rintro ⟨rfl, t, rfl⟩
    exact ⟨t, by simp⟩

theorem drop_slash (y a b : List Nat) : (y ++ 47 :: b).drop (y ++ 47 :: a).length = b.drop a.length := by
  have h1 : y ++ 47 :: b = (y ++ [47]) ++ b := by simp
  have h2 : (y ++ 47 :: a).length = (y ++ [47]).length + a.length := by simp; omega
  rw [h1, h2, ← List.drop_drop, List.drop_left]

theorem direct_iff : ∀ (q q' : Path) (b : Bool), q' ≠ [] → (∀ x ∈ q, Proper x) → (∀ x ∈ q', Proper x) →
    ((keyOf q true <+: keyOf q' b ∧ ((keyOf q' b).drop (keyOf q true).length).count 47 = (if b then 1 else 0)) ↔ ∃ x, q' = q ++ [x])
  | [], q', b, hq', _, hp' => by
    rw [show keyOf [] true = [] from rfl]
    simp only [List.nil_prefix, List.length_nil, List.drop_zero, true_and, List.nil_append, count_keyOf q' b hq' hp']
    have : q'.length ≠ 0 := by simpa using hq'
    rw [← List.length_eq_one_iff]
    omega
  | y :: q, [z], b, _, hp, hp' => by
    have hy := (hp y (by simp)).2.1
    have hz := (hp' z (by simp)).2.1
    have no : ¬ ∃ x, [z] = y :: q ++ [x] := by rintro ⟨x, h⟩; simp at h
    simp only [no, iff_false]
    rintro ⟨h1, h2⟩
    rw [keyOf_cons_true] at h1 h2
    cases b with
    | false =>
      obtain ⟨t, h1⟩ := h1
      simp only [keyOf, Bool.false_eq_true, if_false] at h1
      exact no_slash (a := keyOf q true ++ t) (y := y) hz (by rw [← h1]; simp)
    | true =>
      simp only [keyOf, if_true] at h1 h2
      obtain ⟨rfl, h⟩ := (prefix_slash hy hz).1 h1
      have := List.prefix_nil.1 h
      rw [this] at h2
      simp at h2
  | y :: q, z :: w :: q', b, _, hp, hp' => by
    have hy := (hp y (by simp)).2.1
    have hz := (hp' z (by simp)).2.1
    have ih := direct_iff q (w :: q') b (by simp) (fun x hx => hp x (by simp [hx])) (fun x hx => hp' x (by simp [List.mem_cons.1 hx]))
    rw [keyOf_cons_true, keyOf_cons z _ _ (by simp), prefix_slash hy hz]
    constructor
    · rintro ⟨⟨rfl, h1⟩, h2⟩
      rw [drop_slash] at h2
      obtain ⟨x, h⟩ := ih.1 ⟨h1, h2⟩
      exact ⟨x, by rw [h]; rfl⟩
    · rintro ⟨x, h⟩
      rw [List.cons_append] at h
      injection h with h1 h3
      subst h1
      obtain ⟨h1, h2⟩ := ih.2 ⟨x, h3⟩
      exact ⟨⟨rfl, h1⟩, by rw [drop_slash]; exact h2⟩

/-! ### The whole directory -/

/-- `x` is directly in the directory `q` and among the files `L`. -/
def InL (q : Path) (L : Files) (x : Name) : Prop := Proper x ∧ ∃ e : Entry, (keyOf (q ++ [x]) e.isDir, e) ∈ L

/-- What writing the contents of the directory `q` should do. -/
structure Writes (c : Files) (P q : Path) (L : Files) (fs : Fs) (r : Fs × Bool) : Prop where
  ok : r.2 = true
  below : ∀ x d, InL q L x → r.1.get (P ++ x :: d) = cartAt c (q ++ x :: d)
  other : ∀ s, (¬ ∃ x d, InL q L x ∧ s = P ++ x :: d) → r.1.get s = fs.get s

theorem concat_inj {q : Path} {x y : Name} {b b' : Bool} (hq : ∀ z ∈ q, Proper z) (hx : Proper x) (hy : Proper y)
    (h : keyOf (q ++ [x]) b = keyOf (q ++ [y]) b') : x = y ∧ b = b' := by
  have hp : ∀ w, Proper w → ∀ z ∈ q ++ [w], Proper z := fun w hw z hz => by
    rcases List.mem_append.1 hz with hz | hz
    · exact hq z hz
    · simp only [List.mem_singleton] at hz; exact hz ▸ hw
  obtain ⟨h1, h2⟩ := keyOf_inj (by simp) (by simp) (hp x hx) (hp y hy) h
  have := List.append_cancel_left h1
  exact ⟨by simpa using this, h2⟩

theorem children_writes {c : Files} (hf : Fits c) {P q : Path} (hq : ∀ x ∈ q, Proper x) {go : Fs → Path → Key → Entry → Fs × Bool}
    (hgo : ∀ fs x e, Proper x → (keyOf (q ++ [x]) e.isDir, e) ∈ c → DirsTo fs P → (∀ d, fs.get (P ++ x :: d) = none) →
      (go fs (P ++ [x]) (keyOf (q ++ [x]) e.isDir) e).2 = true ∧
      (∀ d, (go fs (P ++ [x]) (keyOf (q ++ [x]) e.isDir) e).1.get (P ++ x :: d) = cartAt c (q ++ x :: d)) ∧
      ∀ s, (¬ ∃ d, s = P ++ x :: d) → (go fs (P ++ [x]) (keyOf (q ++ [x]) e.isDir) e).1.get s = fs.get s) :
    ∀ (L : Files), (L.map (·.1)).Nodup → (∀ y ∈ L, y ∈ c) → ∀ (fs : Fs), DirsTo fs P → (∀ x d, InL q L x → fs.get (P ++ x :: d) = none) →
      Writes c P q L fs (children go P (keyOf q true) L fs)
  | [], _, _, fs, _, _ => ⟨rfl, fun x d h => absurd h.2 (by simp), fun _ _ => rfl⟩
  | (ck, e) :: L, hn, hc, fs, hd, he => by
    simp only [List.map_cons, List.nodup_cons] at hn
    obtain ⟨q', hq', hp', rfl⟩ := hf.names ck e (hc _ (by simp))
    have hdir := direct_iff q q' e.isDir hq' hq hp'
    rw [children]
    by_cases hx : ∃ x, q' = q ++ [x]
    · obtain ⟨x, rfl⟩ := hx
      have hpx : Proper x := hp' x (by simp)
      have hcnd := hdir.2 ⟨x, rfl⟩
      rw [if_pos (by simpa using hcnd)]
      have hchild : join P ((keyOf (q ++ [x]) e.isDir).drop (keyOf q true).length) = P ++ [x] := by
        have : keyOf (q ++ [x]) e.isDir = keyOf q true ++ keyOf [x] e.isDir := by
          cases q with
          | nil => rfl
          | cons y q => exact keyOf_append _ _ _ (by simp) (by simp)
        rw [this, List.drop_left]
        cases e with
        | dir => exact join_proper_dir hpx
        | file d => exact join_proper hpx
      rw [hchild]
      simp only
      rw [if_pos (by simp [inside])]
      obtain ⟨h1, h2, h3⟩ := hgo fs x e hpx (hc _ (by simp)) hd (fun d => he x d ⟨hpx, e, by simp⟩)
      rw [if_pos h1]
      have hne : ∀ y, InL q L y → y ≠ x := by
        rintro y ⟨hy, e', hm⟩ rfl
        by_cases hb : e'.isDir = e.isDir
        · rw [hb] at hm
          exact hn.1 (List.mem_map.2 ⟨_, hm, rfl⟩)
        · have m1 := hc _ (List.mem_cons_of_mem _ hm)
          have m2 := hc (keyOf (q ++ [y]) e.isDir, e) (by simp)
          cases e <;> cases e'
          · exact hb rfl
          · exact hf.one _ _ hp' m2 m1
          · exact hf.one _ _ hp' m1 m2
          · exact hb rfl
      have ih := children_writes hf hq hgo L hn.2 (fun y hy => hc y (by simp [hy])) (go fs (P ++ [x]) (keyOf (q ++ [x]) e.isDir) e).1
        (fun s hs hp => by
          rw [h3 s, hd s hs hp]
          rintro ⟨d, rfl⟩
          exact absurd (prefix_self hp) (by simp))
        (fun y d hy => by
          rw [h3 _, he y d ⟨hy.1, by obtain ⟨-, e', hm⟩ := hy; exact ⟨e', by simp [hm]⟩⟩]
          rintro ⟨d', h⟩
          have := List.append_cancel_left h
          injection this with h _
          exact hne y hy h)
      refine ⟨ih.ok, ?_, ?_⟩
      · intro y d hy
        by_cases hyx : y = x
        · subst hyx
          rw [ih.other, h2]
          rintro ⟨z, d', hz, h⟩
          have := List.append_cancel_left h
          injection this with h _
          exact hne z hz h.symm
        · refine ih.below y d ⟨hy.1, ?_⟩
          obtain ⟨hy', e', hm⟩ := hy
          refine ⟨e', ?_⟩
          rcases List.mem_cons.1 hm with hm | hm
          · injection hm with h _
            exact absurd (concat_inj hq hy' hpx h).1 hyx
          · exact hm
      · intro s hs
        rw [ih.other s, h3 s]
        · rintro ⟨d, rfl⟩
          exact hs ⟨x, d, ⟨hpx, e, by simp⟩, rfl⟩
        · rintro ⟨y, d, ⟨hy, e', hm⟩, rfl⟩
          exact hs ⟨y, d, ⟨hy, e', by simp [hm]⟩, rfl⟩
    · have hcnd : ¬ ((keyOf q true).isPrefixOf (keyOf q' e.isDir) && ((keyOf q' e.isDir).drop (keyOf q true).length).count 47 == (if e.isDir then 1 else 0)) = true := by
        intro h
        exact hx (hdir.1 (by simpa using h))
      rw [if_neg hcnd]
      have same : ∀ y, InL q ((keyOf q' e.isDir, e) :: L) y ↔ InL q L y := by
        intro y
        constructor
        · rintro ⟨hy, e', hm⟩
          refine ⟨hy, e', ?_⟩
          rcases List.mem_cons.1 hm with hm | hm
          · injection hm with h _
            have hpy : ∀ z ∈ q ++ [y], Proper z := fun z hz => by
              rcases List.mem_append.1 hz with hz | hz
              · exact hq z hz
              · simp only [List.mem_singleton] at hz; exact hz ▸ hy
            exact absurd ⟨y, (keyOf_inj (by simp) hq' hpy hp' h).1.symm⟩ hx
          · exact hm
        · rintro ⟨hy, e', hm⟩
          exact ⟨hy, e', by simp [hm]⟩
      have ih := children_writes hf hq hgo L hn.2 (fun y hy => hc y (by simp [hy])) fs hd (fun y d hy => he y d ((same y).2 hy))
      refine ⟨ih.ok, fun y d hy => ih.below y d ((same y).1 hy), fun s hs => ih.other s ?_⟩
      rintro ⟨y, d, hy, rfl⟩
      exact hs ⟨y, d, (same y).2 hy, rfl⟩

theorem writeFile_writes {c : Files} (hf : Fits c) {P q : Path} (hq : ∀ x ∈ q, Proper x) (fs : Fs) {x : Name} {d : List Nat} (hx : Proper x)
    (hm : (keyOf (q ++ [x]) false, Entry.file d) ∈ c) (hd : DirsTo fs P) (he : ∀ d, fs.get (P ++ x :: d) = none) :
    (writeFile c fs (P ++ [x]) (keyOf (q ++ [x]) false)).2 = true ∧
      (∀ d, (writeFile c fs (P ++ [x]) (keyOf (q ++ [x]) false)).1.get (P ++ x :: d) = cartAt c (q ++ x :: d)) ∧
      ∀ s, (¬ ∃ d, s = P ++ x :: d) → (writeFile c fs (P ++ [x]) (keyOf (q ++ [x]) false)).1.get s = fs.get s := by
  have h1 : fs.isDir (P ++ [x]) = false := by
    unfold Fs.isDir
    rw [he []]; simp
  have h2 : writeFile c fs (P ++ [x]) (keyOf (q ++ [x]) false) = (fs.set (P ++ [x]) (.file d), true) := by
    unfold writeFile
    rw [lookup_of hf.unique hm, h1]
    simp only [Bool.false_eq_true, if_false]
    unfold Fs.write
    rw [h1, List.dropLast_concat, hd.isDir]
    rfl
  have hp : ∀ z ∈ q ++ [x], Proper z := fun z hz => by
    rcases List.mem_append.1 hz with hz | hz
    · exact hq z hz
    · simp only [List.mem_singleton] at hz; exact hz ▸ hx
  rw [h2]
  refine ⟨rfl, fun t => ?_, fun s hs => ?_⟩
  · rw [get_set]
    cases t with
    | nil => rw [if_pos rfl]; exact ((cartAt_iff hf (e := .file d) (by simp)).2 ⟨hp, hm⟩).symm
    | cons y t =>
      rw [if_neg (by simp), he]
      cases ha : cartAt c (q ++ x :: y :: t) with
      | none => rfl
      | some e =>
        have := hf.above (y :: t) (q ++ [x]) (by simp) (by simp) (by simp [ha])
        exact absurd hm (hf.one _ _ hp this)
  · rw [get_set, if_neg]
    rintro rfl
    exact hs ⟨[], rfl⟩

theorem writeDir_writes {c : Files} (hf : Fits c) {p : Path} : ∀ (n : Nat) (fs : Fs) (q : Path), q ≠ [] → (∀ x ∈ q, Proper x) → (keyOf q true, Entry.dir) ∈ c →
    (∀ d, (cartAt c (q ++ d)).isSome → d.length < n) → DirsTo fs (p ++ q.dropLast) → (∀ d, fs.get (p ++ q ++ d) = none) →
    (writeDir c n fs (p ++ q) (keyOf q true)).2 = true ∧
      (∀ d, (writeDir c n fs (p ++ q) (keyOf q true)).1.get (p ++ q ++ d) = cartAt c (q ++ d)) ∧
      ∀ s, ¬ p ++ q <+: s → (writeDir c n fs (p ++ q) (keyOf q true)).1.get s = fs.get s
  | 0, _, q, hq, hp, hm, hn, _, _ => by
    have := hn [] (by rw [List.append_nil, (cartAt_iff hf (e := .dir) hq).2 ⟨hp, hm⟩]; rfl)
    simp at this
  | n + 1, fs, q, hq, hp, hm, hn, hd, he => by
    have hself : cartAt c q = some .dir := (cartAt_iff hf hq).2 ⟨hp, hm⟩
    have hpq : p ++ q = p ++ q.dropLast ++ [q.getLast hq] := by rw [List.append_assoc, List.dropLast_concat_getLast]
    -- the directory is made
    have hen : ∃ fs1, fs.ensureDir (p ++ q) = some fs1 ∧ DirsTo fs1 (p ++ q) ∧ ∀ s, s ≠ p ++ q → fs1.get s = fs.get s := by
      have h0 := he []
      rw [List.append_nil] at h0
      obtain ⟨fs1, h1, h2⟩ := mkdirs_some (xs := p ++ q) (fs := fs) (p := []) (fun s hs h => absurd (List.prefix_nil.1 h) hs) (fun s hs h d => by
        rw [List.nil_append, hpq] at h
        rcases List.prefix_concat_iff.1 h with h | h
        · rw [h, ← hpq, h0]; simp
        · rw [hd s hs h]; simp)
      refine ⟨fs1, by rw [Fs.ensureDir, h0]; exact h1, h2, fun s hs => ?_⟩
      rcases mkdirs_get h1 s with h | ⟨h3, h4, -⟩
      · exact h
      · rw [List.nil_append, hpq] at h3
        rcases List.prefix_concat_iff.1 h3 with h | h
        · exact absurd (h.trans hpq.symm) hs
        · by_cases h0 : s = []
          · rw [h0]; exact mkdirs_root h1
          · rw [hd s h0 h] at h4; cases h4
    obtain ⟨fs1, h1, h2, h3⟩ := hen
    rw [writeDir, h1]
    simp only
    rw [dirKey_of (dirName_keyOf q)]
    have hw := children_writes hf hp (P := p ++ q) (go := fun fs p k e => if e.isDir then writeDir c n fs p k else writeFile c fs p k)
      (fun fs x e hx hmx hdx hex => by
        have hpx : ∀ z ∈ q ++ [x], Proper z := fun z hz => by
          rcases List.mem_append.1 hz with hz | hz
          · exact hp z hz
          · simp only [List.mem_singleton] at hz; exact hz ▸ hx
        cases e with
        | file d => exact writeFile_writes hf hp fs hx hmx hdx hex
        | dir =>
          simp only [Entry.isDir, if_true]
          have := writeDir_writes hf (p := p) n fs (q ++ [x]) (by simp) hpx hmx
            (fun d h => by have := hn (x :: d) (by simpa using h); simp at this; omega)
            (by rw [List.dropLast_concat]; exact hdx)
            (fun d => by have := hex d; simpa using this)
          rw [← List.append_assoc] at this
          refine ⟨this.1, fun d => ?_, fun s hs => this.2.2 s ?_⟩
          · have := this.2.1 d
            simpa using this
          · rintro ⟨d, rfl⟩
            exact hs ⟨d, by simp⟩)
      c hf.unique (fun _ h => h) fs1 h2 (fun x d _ => by
        rw [h3 _ (fun h => by have := congrArg List.length h; simp at this)]
        exact he (x :: d))
    refine ⟨hw.ok, fun d => ?_, fun s hs => ?_⟩
    · cases d with
      | nil =>
        simp only [List.append_nil]
        rw [hw.other, h2 _ (by simp [hq]) (List.prefix_refl _), hself]
        rintro ⟨x, d, -, h⟩
        have := congrArg List.length h
        simp at this
      | cons x d =>
        by_cases hx : InL q c x
        · exact hw.below x d hx
        · rw [hw.other, h3 _ (fun h => by have := congrArg List.length h; simp at this), he]
          · cases ha : cartAt c (q ++ x :: d) with
            | none => rfl
            | some e =>
              exfalso
              have hi := (cartAt_iff hf (by simp)).1 ha
              refine hx ⟨hi.1 x (by simp), ?_⟩
              cases d with
              | nil => exact ⟨e, hi.2⟩
              | cons y d => exact ⟨.dir, hf.above (y :: d) (q ++ [x]) (by simp) (by simp) (by simp [ha])⟩
          · rintro ⟨y, d', hy, h⟩
            have := List.append_cancel_left h
            injection this with h _
            exact hx (h ▸ hy)
    · rw [hw.other, h3 s (by rintro rfl; exact hs (List.prefix_refl _))]
      rintro ⟨x, d, -, rfl⟩
      exact hs (List.prefix_append _ _)

end Verif.CartDir
