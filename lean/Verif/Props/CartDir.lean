import Verif.CartDirRead
import Verif.CartDirWrite
/-
C77: Picotron carts kept as directories.
-/
namespace Verif.CartDir

/-- Whatever is in the cart (names with `..`, absolute names, ...), and whether writing succeeds or not, nothing outside the directory is changed, apart
from making the directories it is in. -/
theorem C77_inside (c : Files) (deleteExisting : Bool) (fs : Fs) (p s : Path) (hs : ¬ p <+: s) :
    (writeCart c deleteExisting fs p).1.get s = fs.get s ∨
      (s <+: p ∧ fs.get s = none ∧ (writeCart c deleteExisting fs p).1.get s = some .dir) := by
  unfold writeCart
  split
  · split
    · exact .inl rfl
    · have := writeDir_safe (c := c) (depth c) (fs.rmtree p) p [] (List.prefix_refl p) s hs
      rw [get_rmtree, if_neg (by simpa using hs)] at this
      exact this
  · exact writeDir_safe (c := c) (depth c) fs p [] (List.prefix_refl p) s hs

theorem le_sum_of {l : List Nat} {a : Nat} (h : a ∈ l) : a ≤ l.sum := by
  induction l with
  | nil => cases h
  | cons b l ih =>
    rw [List.sum_cons]
    rcases List.mem_cons.1 h with rfl | h
    · omega
    · have := ih h; omega

/-- Reading a directory finds every directory below it, every wanted file with its contents, and nothing else. -/
theorem C77_read (keep : Key → Bool) {fs : Fs} {p : Path} (ht : Tree fs p) (k : Key) (e : Entry) :
    (readCart keep fs p).lookup k = some e ↔
      ∃ q : Path, q ≠ [] ∧ fs.get (p ++ q) = some e ∧ k = keyOf q e.isDir ∧ (e.isDir = true ∨ keep k = true) := by
  have hr : Reads keep fs p [] [] (readCart keep fs p) := by
    have := readDir_reads (keep := keep) ht ((fs.map (·.1.length)).sum + 1) [] [] [] (by simp) (by omega) (fun c hc => by
      obtain ⟨e, he⟩ := Option.isSome_iff_exists.1 hc
      have hm := mem_of_get he
      have : (p ++ [] ++ c).length ≤ (fs.map (·.1.length)).sum := le_sum_of (List.mem_map.2 ⟨_, hm, rfl⟩)
      simp at this; omega) (by simp) rfl
    rw [List.append_nil] at this
    exact this
  constructor
  · intro h
    by_cases hx : ∃ (c : Path) (e : Entry), [] ++ c ≠ [] ∧ fs.get (p ++ c) = some e ∧ Seen keep e k ∧ k = keyOf ([] ++ c) e.isDir
    · obtain ⟨c, e', hne, hc, hs, rfl⟩ := hx
      have := hr.found c e' hne hc hs
      rw [h] at this
      obtain rfl := Option.some.inj this
      exact ⟨c, by simpa using hne, hc, rfl, hs⟩
    · rw [hr.other k hx] at h; cases h
  · rintro ⟨q, hq, hg, rfl, hs⟩
    exact hr.found q e (by simpa using hq) hg hs

theorem fits_depth {c : Files} (hf : Fits c) {q : Path} (hq : q ≠ []) (h : (cartAt c q).isSome) : q.length < depth c := by
  obtain ⟨e, he⟩ := Option.isSome_iff_exists.1 h
  obtain ⟨hp, hm⟩ := (cartAt_iff hf hq).1 he
  have h1 : (keyOf q e.isDir).length ≤ (c.map (·.1.length)).sum := le_sum_of (List.mem_map.2 ⟨_, hm, rfl⟩)
  have h2 : q.length ≤ (keyOf q e.isDir).length := by
    clear he hm h1 h
    induction q with
    | nil => simp
    | cons x q ih =>
      have hx : x.length ≠ 0 := by have := (hp x (by simp)).1; simpa using this
      cases q with
      | nil => cases e <;> simp [keyOf, Entry.isDir] <;> omega
      | cons y q =>
        have := ih (by simp) (fun z hz => hp z (by simp [List.mem_cons.1 hz]))
        rw [keyOf_cons _ _ _ (by simp)]
        simp only [List.length_cons, List.length_append] at this ⊢; omega
  unfold depth; omega

theorem Sound.above {fs : Fs} (h : Sound fs) : ∀ (c q : Path), q ≠ [] → c ≠ [] → (fs.get (q ++ c)).isSome → fs.get q = some .dir
  | [], _, _, hc, _ => absurd rfl hc
  | [x], q, hq, _, hs => h q x hq hs
  | x :: y :: c, q, hq, _, hs => by
    have := h.above (y :: c) (q ++ [x]) (by simp) (by simp) (by simpa using hs)
    exact h q x hq (by rw [this]; rfl)

/-- Writing to a free place, without anything there. -/
theorem write_free {c : Files} (hf : Fits c) {fs : Fs} {p : Path} (hs : Sound fs) (hd : ∀ s, s ≠ [] → s <+: p → ∀ d, fs.get s ≠ some (.file d))
    (he : ∀ q, q ≠ [] → fs.get (p ++ q) = none) :
    (writeDir c (depth c) fs p []).2 = true ∧ ∀ q, q ≠ [] → (writeDir c (depth c) fs p []).1.get (p ++ q) = cartAt c q := by
  have hen : ∃ fs1, fs.ensureDir p = some fs1 ∧ DirsTo fs1 p ∧ ∀ q, q ≠ [] → fs1.get (p ++ q) = none := by
    cases h0 : fs.get p with
    | some e =>
      refine ⟨fs, by rw [Fs.ensureDir, h0]; rfl, ?_, he⟩
      rintro s hs0 ⟨t, rfl⟩
      cases t with
      | nil =>
        rw [List.append_nil] at h0
        cases e with
        | dir => exact h0
        | file d => exact absurd h0 (hd s hs0 (by simp) d)
      | cons x t => exact hs.above (x :: t) s hs0 (by simp) (by rw [h0]; rfl)
    | none =>
      obtain ⟨fs1, h1, h2⟩ := mkdirs_some (xs := p) (fs := fs) (p := []) (fun s hs h => absurd (List.prefix_nil.1 h) hs) (by simpa using hd)
      refine ⟨fs1, by rw [Fs.ensureDir, h0]; exact h1, h2, fun q hq => ?_⟩
      rcases mkdirs_get h1 (p ++ q) with h | ⟨h, -⟩
      · rw [h, he q hq]
      · exact absurd (prefix_self (by simpa using h)) hq
  obtain ⟨fs1, h1, h2, h3⟩ := hen
  have hw := children_writes hf (q := []) (by simp) (P := p) (go := fun fs p k e => if e.isDir then writeDir c (depth c - 1) fs p k else writeFile c fs p k)
    (fun fs x e hx hmx hdx hex => by
      cases e with
      | file d => exact writeFile_writes hf (by simp) fs hx hmx hdx hex
      | dir =>
        simp only [Entry.isDir, if_true, List.nil_append]
        have := writeDir_writes hf (p := p) (depth c - 1) fs [x] (by simp) (by simpa using hx) hmx
          (fun d h => by have := fits_depth hf (by simp) h; simp at this; omega)
          (by simpa using hdx) (fun d => by have := hex d; simpa using this)
        refine ⟨this.1, fun d => ?_, fun s hs => this.2.2 s ?_⟩
        · have := this.2.1 d
          simpa using this
        · rintro ⟨d, rfl⟩
          exact hs ⟨d, by simp⟩)
    c hf.unique (fun _ h => h) fs1 h2 (fun x d _ => h3 _ (by simp))
  have e : writeDir c (depth c) fs p [] =
      children (fun fs p k e => if e.isDir then writeDir c (depth c - 1) fs p k else writeFile c fs p k) p (keyOf [] true) c fs1 := by
    conv => lhs; rw [show depth c = (depth c - 1) + 1 by unfold depth; omega]
    rw [writeDir, h1]; rfl
  rw [e]
  refine ⟨hw.ok, fun q hq => ?_⟩
  cases q with
  | nil => exact absurd rfl hq
  | cons x d =>
    by_cases hx : InL [] c x
    · exact hw.below x d hx
    · rw [hw.other, h3 _ (by simp)]
      · cases ha : cartAt c (x :: d) with
        | none => rfl
        | some e =>
          exfalso
          have hi := (cartAt_iff hf (by simp)).1 ha
          refine hx ⟨hi.1 x (by simp), ?_⟩
          cases d with
          | nil => exact ⟨e, hi.2⟩
          | cons y d => exact ⟨.dir, hf.above (y :: d) [x] (by simp) (by simp) (by simp [ha])⟩
      · rintro ⟨y, d', hy, h⟩
        have := List.append_cancel_left h
        injection this with h _
        exact hx (h ▸ hy)

/-- A cart whose directories are listed is written completely: the directory then holds its directories and files, and nothing else. -/
theorem C77_written {c : Files} (hf : Fits c) {fs : Fs} {p : Path} {del : Bool} (hp : Free fs del p) :
    (writeCart c del fs p).2 = true ∧ ∀ (q : Path) (e : Entry), q ≠ [] →
      ((writeCart c del fs p).1.get (p ++ q) = some e ↔ (∀ x ∈ q, Proper x) ∧ (keyOf q e.isDir, e) ∈ c) := by
  have key : (writeCart c del fs p).2 = true ∧ ∀ q, q ≠ [] → (writeCart c del fs p).1.get (p ++ q) = cartAt c q := by
    unfold writeCart
    cases del with
    | false =>
      simp only [Bool.false_eq_true, if_false]
      exact write_free hf hp.sound (fun s _ => hp.dirs s) (hp.empty.resolve_left (by simp))
    | true =>
      simp only [if_true]
      have h := write_free hf (fs := fs.rmtree p) (p := p)
        (fun s x hs h => by
          rw [get_rmtree] at h ⊢
          split at h
          · cases h
          · rename_i h1
            rw [if_neg (fun h2 => h1 (by
              simp only [List.isPrefixOf_iff_prefix] at h2 ⊢
              exact h2.trans (List.prefix_append _ _)))]
            exact hp.sound s x hs h)
        (fun s hs h d => by
          rw [get_rmtree]
          split
          · simp
          · exact hp.dirs s h d)
        (fun q _ => by rw [get_rmtree, if_pos (by simp)])
      split
      · rename_i d hd
        exact absurd hd (hp.dirs _ (List.prefix_refl _) d)
      · exact h
  refine ⟨key.1, fun q e hq => ?_⟩
  rw [key.2 q hq, cartAt_iff hf hq]

/-- A cart whose directories are listed is read back as it was. -/
theorem C77_round_trip {c : Files} (hf : Fits c) {fs : Fs} {p : Path} {del : Bool} (hp : Free fs del p) (k : Key) :
    (readCart (fun _ => true) (writeCart c del fs p).1 p).lookup k = c.lookup k := by
  obtain ⟨-, hw⟩ := C77_written hf hp
  have ht : Tree (writeCart c del fs p).1 p := by
    constructor
    · intro q h
      cases q with
      | nil => simp
      | cons x q =>
        obtain ⟨e, he⟩ := Option.isSome_iff_exists.1 h
        exact ((hw _ e (by simp)).1 he).1
    · intro q x hq h
      obtain ⟨e, he⟩ := Option.isSome_iff_exists.1 h
      rw [List.append_assoc] at he
      obtain ⟨h1, h2⟩ := (hw _ e (by simp)).1 he
      exact (hw q .dir hq).2 ⟨fun y hy => h1 y (by simp [hy]), hf.parents q x e hq h1 h2⟩
  have hiff : ∀ e, (readCart (fun _ => true) (writeCart c del fs p).1 p).lookup k = some e ↔ c.lookup k = some e := by
    intro e
    rw [C77_read _ ht]
    constructor
    · rintro ⟨q, hq, hg, rfl, -⟩
      exact lookup_of hf.unique ((hw q e hq).1 hg).2
    · intro h
      have hm := lookup_mem h
      obtain ⟨q, hq, hp', rfl⟩ := hf.names _ _ hm
      exact ⟨q, hq, (hw q e hq).2 ⟨hp', hm⟩, rfl, .inr rfl⟩
  cases hr : (readCart (fun _ => true) (writeCart c del fs p).1 p).lookup k with
  | some e => exact ((hiff e).1 hr).symm
  | none =>
    cases hc : c.lookup k with
    | none => rfl
    | some e => rw [(hiff e).2 hc] at hr; cases hr

/-! ### Examples -/

/-- Characters of a text. -/
def chars (s : String) : List Nat := s.toList.map Char.toNat

/-- A cart with a directory in a directory. -/
def demoCart : Files :=
  [(chars "main.lua", .file [1, 2]), (chars "gfx/", .dir), (chars "gfx/0.gfx", .file [3]), (chars "gfx/old/", .dir), (chars "gfx/old/..x", .file [])]

/-- A disk with something else on it. -/
def demoDisk : Fs := [([chars "home"], .dir), ([chars "home", chars "notes"], .file [7])]

/-- A cart from paths. -/
def ofPaths (l : List (Path × Entry)) : Files := l.map fun x => (keyOf x.1 x.2.isDir, x.2)

theorem fits_ofPaths {l : List (Path × Entry)} (hp : ∀ x ∈ l, x.1 ≠ [] ∧ ∀ y ∈ x.1, Proper y) (hn : (l.map (·.1)).Nodup)
    (hd : ∀ x ∈ l, x.1.dropLast = [] ∨ (x.1.dropLast, Entry.dir) ∈ l) : Fits (ofPaths l) := by
  have mem : ∀ (q : Path) (b : Bool) (e : Entry), q ≠ [] → (∀ y ∈ q, Proper y) → (keyOf q b, e) ∈ ofPaths l → (q, e) ∈ l := by
    intro q b e hq hq' h
    obtain ⟨⟨q', e'⟩, hm, he⟩ := List.mem_map.1 h
    injection he with h1 h2
    obtain ⟨h3, h4⟩ := hp _ hm
    simp only at h1 h2
    subst h2
    exact (keyOf_inj h3 hq h4 hq' h1).1 ▸ hm
  refine ⟨?_, ?_, ?_, ?_⟩
  · intro k e h
    obtain ⟨⟨q, e'⟩, hm, he⟩ := List.mem_map.1 h
    injection he with h1 h2
    simp only at h1 h2
    subst h2
    exact ⟨q, (hp _ hm).1, (hp _ hm).2, h1.symm⟩
  · intro q x e hq hq' h
    have := hd _ (mem _ _ _ (by simp) hq' h)
    simp only [List.dropLast_concat] at this
    exact List.mem_map.2 ⟨_, this.resolve_left hq, rfl⟩
  · unfold ofPaths
    rw [List.map_map]
    clear hd mem
    induction l with
    | nil => simp
    | cons x l ih =>
      rw [List.map_cons, List.nodup_cons] at hn ⊢
      refine ⟨fun h => hn.1 ?_, ih (fun y hy => hp y (by simp [hy])) hn.2⟩
      obtain ⟨y, hy, he⟩ := List.mem_map.1 h
      obtain ⟨h1, h2⟩ := hp x (by simp)
      obtain ⟨h3, h4⟩ := hp y (by simp [hy])
      exact List.mem_map.2 ⟨y, hy, (keyOf_inj h3 h1 h4 h2 he).1⟩
  · intro q d hq' h1 h2
    by_cases hq : q = []
    · subst hq
      obtain ⟨⟨q', e'⟩, hm, he⟩ := List.mem_map.1 h1
      injection he with he _
      exact keyOf_ne (hp _ hm).1 (hp _ hm).2 he
    · have m1 := mem _ _ _ hq hq' h1
      have m2 := mem _ _ _ hq hq' h2
      have : ∀ (l : List (Path × Entry)), (l.map (·.1)).Nodup → (q, Entry.dir) ∈ l → (q, Entry.file d) ∈ l → False := by
        intro l
        induction l with
        | nil => intro _ h; cases h
        | cons x l ih =>
          intro hn m1 m2
          rw [List.map_cons, List.nodup_cons] at hn
          rcases List.mem_cons.1 m1 with m1 | m1 <;> rcases List.mem_cons.1 m2 with m2 | m2
          · rw [← m1] at m2; cases m2
          · exact hn.1 (List.mem_map.2 ⟨_, m2, by rw [← m1]⟩)
          · exact hn.1 (List.mem_map.2 ⟨_, m1, by rw [← m2]⟩)
          · exact ih hn.2 m1 m2
      exact this l hn m1 m2

-- what is assumed holds for it
example : Fits demoCart :=
  fits_ofPaths (l := [([chars "main.lua"], .file [1, 2]), ([chars "gfx"], .dir), ([chars "gfx", chars "0.gfx"], .file [3]), ([chars "gfx", chars "old"], .dir),
    ([chars "gfx", chars "old", chars "..x"], .file [])]) (by decide +kernel) (by decide +kernel) (by decide +kernel)

example : Free demoDisk false [chars "home", chars "cart"] where
  sound := by
    intro s x hs h
    have := mem_of_get (Option.isSome_iff_exists.1 h).choose_spec
    simp only [demoDisk, List.mem_cons, Prod.mk.injEq, List.not_mem_nil, or_false] at this
    rcases this with ⟨h, -⟩ | ⟨h, -⟩
    · cases s with
      | nil => exact absurd rfl hs
      | cons y s => simp at h
    · have : s = [chars "home"] := by
        cases s with
        | nil => exact absurd rfl hs
        | cons y s =>
          cases s with
          | nil => simp at h; simp [h.1]
          | cons z s => simp at h
      subst this; decide +kernel
  dirs := by
    rintro s ⟨t, h⟩ d hd
    have := mem_of_get hd
    simp only [demoDisk, List.mem_cons, Prod.mk.injEq, List.not_mem_nil, or_false, reduceCtorEq, and_false, false_or] at this
    rw [this.1] at h
    simp only [List.cons_append, List.cons.injEq, List.nil_append] at h
    exact absurd h.2.1 (by decide +kernel)
  empty := by
    refine .inr fun q hq => ?_
    cases h : demoDisk.get ([chars "home", chars "cart"] ++ q) with
    | none => rfl
    | some e =>
      have := mem_of_get h
      simp only [demoDisk, List.mem_cons, Prod.mk.injEq, List.not_mem_nil, or_false, List.cons_append, List.cons.injEq, List.nil_append, reduceCtorEq, and_false, false_and, false_or] at this
      exact absurd this.1.2.1 (by decide +kernel)

example : (writeCart demoCart false demoDisk [chars "home", chars "cart"]) =
    ([([chars "home", chars "cart", chars "gfx", chars "old", chars "..x"], .file []), ([chars "home", chars "cart", chars "gfx", chars "old"], .dir),
      ([chars "home", chars "cart", chars "gfx", chars "0.gfx"], .file [3]), ([chars "home", chars "cart", chars "gfx"], .dir),
      ([chars "home", chars "cart", chars "main.lua"], .file [1, 2]), ([chars "home", chars "cart"], .dir),
      ([chars "home"], .dir), ([chars "home", chars "notes"], .file [7])], true) := by decide +kernel

example : readCart (fun _ => true) (writeCart demoCart false demoDisk [chars "home", chars "cart"]).1 [chars "home", chars "cart"] =
    [(chars "gfx/", .dir), (chars "gfx/old/", .dir), (chars "gfx/old/..x", .file []), (chars "gfx/0.gfx", .file [3]), (chars "main.lua", .file [1, 2])] := by
  decide +kernel

-- `..` and absolute names are refused
example : writeCart [(chars "../evil", .file [1])] false demoDisk [chars "home", chars "cart"] = (([chars "home", chars "cart"], .dir) :: demoDisk, true) := by
  decide +kernel
example : writeCart [(chars "..", .file [1])] false demoDisk [chars "home", chars "cart"] = (([chars "home", chars "cart"], .dir) :: demoDisk, false) := by
  decide +kernel
example : writeCart [(chars "../", .dir), (chars "../evil", .file [1])] false demoDisk [chars "home", chars "cart"] =
    (([chars "home", chars "cart"], .dir) :: demoDisk, false) := by
  decide +kernel

/-- A file in a directory that the cart does not list is lost without a message. -/
theorem C77_unlisted_counterexample :
    let c : Files := [(chars "main.lua", .file [1]), (chars "lib/a.lua", .file [2])]
    (writeCart c false [] [chars "out"]).2 = true ∧
      (readCart (fun _ => true) (writeCart c false [] [chars "out"]).1 [chars "out"]) = [(chars "main.lua", .file [1])] := by decide +kernel

/-- Such a cart results from keeping only the `.lua` files of a cart that lists its directories. -/
theorem C77_filter_counterexample :
    let c : Files := [(chars "main.lua", .file [1]), (chars "lib/", .dir), (chars "lib/a.lua", .file [2])]
    let lua : Key → Bool := fun k => (chars ".lua").isSuffixOf k
    filterCart lua c = [(chars "main.lua", .file [1]), (chars "lib/a.lua", .file [2])] ∧
      (readCart (fun _ => true) (writeCart (filterCart lua c) false [] [chars "out"]).1 [chars "out"]).lookup (chars "lib/a.lua") = none := by decide +kernel

end Verif.CartDir
