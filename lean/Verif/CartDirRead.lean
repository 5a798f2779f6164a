import Verif.CartDirLemmas
/-
Reading a directory (C77).
-/
namespace Verif.CartDir

theorem Tree.above {fs : Fs} {p : Path} (h : Tree fs p) : ∀ (c q : Path), q ≠ [] → c ≠ [] → (fs.get (p ++ q ++ c)).isSome → fs.get (p ++ q) = some .dir
  | [], _, _, hc, _ => absurd rfl hc
  | [x], q, hq, _, hs => h.parents q x hq hs
  | x :: y :: c, q, hq, _, hs => by
    have := h.above (y :: c) (q ++ [x]) (by simp) (by simp) (by simpa using hs)
    exact h.parents q x hq (by rw [← List.append_assoc] at this; rw [this]; rfl)

/-- Directories are always read, files when they are wanted. -/
def Seen (keep : Key → Bool) (e : Entry) (k : Key) : Prop := e.isDir = true ∨ keep k = true

/-- What reading a directory should do. -/
structure Reads (keep : Key → Bool) (fs : Fs) (P q : Path) (before after : Files) : Prop where
  found : ∀ (c : Path) (e : Entry), q ++ c ≠ [] → fs.get (P ++ c) = some e → Seen keep e (keyOf (q ++ c) e.isDir) → after.lookup (keyOf (q ++ c) e.isDir) = some e
  other : ∀ k, (¬ ∃ (c : Path) (e : Entry), q ++ c ≠ [] ∧ fs.get (P ++ c) = some e ∧ Seen keep e k ∧ k = keyOf (q ++ c) e.isDir) → after.lookup k = before.lookup k

/-- The same for some of the names in the directory. -/
structure ReadsIn (keep : Key → Bool) (fs : Fs) (P q : Path) (L : List Name) (before after : Files) : Prop where
  found : ∀ (x : Name) (c : Path) (e : Entry), x ∈ L → fs.get (P ++ x :: c) = some e → Seen keep e (keyOf (q ++ x :: c) e.isDir) →
    after.lookup (keyOf (q ++ x :: c) e.isDir) = some e
  other : ∀ k, (¬ ∃ (x : Name) (c : Path) (e : Entry), x ∈ L ∧ fs.get (P ++ x :: c) = some e ∧ Seen keep e k ∧ k = keyOf (q ++ x :: c) e.isDir) →
    after.lookup k = before.lookup k

theorem dirKey_child {q : Path} {x : Name} (h : Proper x) : dirKey (keyOf q true ++ x) = keyOf (q ++ [x]) true := by
  have e : keyOf (q ++ [x]) true = keyOf q true ++ x ++ [47] := by
    cases q with
    | nil => simp [keyOf]
    | cons y q => rw [keyOf_append _ _ _ (by simp) (by simp)]; simp [keyOf]
  rw [e, dirKey, if_pos]
  refine ⟨by simp [h.1], ?_⟩
  rw [List.getLast?_append]
  cases hx : x.getLast? with
  | none => exact absurd (List.getLast?_eq_none_iff.1 hx) h.1
  | some a =>
    intro e
    simp only [Option.some_or, Option.some.injEq] at e
    subst e
    exact h.2.1 (List.mem_of_getLast? hx)

theorem keyOf_child {q : Path} (x : Name) : keyOf (q ++ [x]) false = keyOf q true ++ x := by
  cases q with
  | nil => simp [keyOf]
  | cons y q => rw [keyOf_append _ _ _ (by simp) (by simp)]; simp [keyOf]

theorem readIn {keep : Key → Bool} {fs : Fs} {p : Path} (ht : Tree fs p) {q : Path} (hq : ∀ x ∈ q, Proper x) {n : Nat}
    (ih : ∀ (x : Name) (files : Files), Proper x → fs.get (p ++ q ++ [x]) = some .dir →
      Reads keep fs (p ++ q ++ [x]) (q ++ [x]) files (readDir keep fs n (p ++ q ++ [x]) (keyOf q true ++ x) files)) :
    ∀ (L : List Name) (files : Files), (∀ x ∈ L, (fs.get (p ++ q ++ [x])).isSome) →
      ReadsIn keep fs (p ++ q) q L files (L.foldl (fun files x =>
        readAt keep (readDir keep fs n (p ++ q ++ [x]) (keyOf q true ++ x)) (keyOf q true ++ x) files (fs.get (p ++ q ++ [x]))) files)
  | [], _, _ => ⟨fun _ _ _ h => absurd h (by simp), fun _ _ => rfl⟩
  | x :: L, files, hL => by
    have hprop : ∀ (y : Name) (c : Path), (fs.get (p ++ q ++ y :: c)).isSome → ∀ z ∈ q ++ y :: c, Proper z := fun y c h =>
      ht.names (q ++ y :: c) (by rw [← List.append_assoc]; exact h)
    have hx : Proper x := hprop x [] (hL x (by simp)) x (by simp)
    -- the first name
    have h1 : ReadsIn keep fs (p ++ q) q [x] files
        (readAt keep (readDir keep fs n (p ++ q ++ [x]) (keyOf q true ++ x)) (keyOf q true ++ x) files (fs.get (p ++ q ++ [x]))) := by
      cases hg : fs.get (p ++ q ++ [x]) with
      | none => have := hL x (by simp); rw [hg] at this; cases this
      | some e =>
        cases e with
        | dir =>
          have h := ih x files hx hg
          refine ⟨?_, ?_⟩
          · intro y c e hy hc hs
            simp only [List.mem_singleton] at hy
            subst hy
            have := h.found c e (by simp) (by simpa using hc)
            rw [List.append_assoc q, List.singleton_append] at this
            exact this hs
          · intro k hk
            refine h.other k fun ⟨c, e, _, hc, hs, he⟩ => hk ⟨x, c, e, by simp, by simpa using hc, hs, by simpa using he⟩
        | file d =>
          have only : ∀ (c : Path) (e : Entry), fs.get (p ++ q ++ x :: c) = some e → c = [] ∧ e = .file d := by
            intro c e hc
            cases c with
            | nil => rw [hg] at hc; exact ⟨rfl, (Option.some.inj hc).symm⟩
            | cons y c =>
              have := ht.above (y :: c) (q ++ [x]) (by simp) (by simp)
                (by simpa using by simp only [List.append_assoc] at hc; rw [hc]; rfl)
              rw [← List.append_assoc, hg] at this; cases this
          refine ⟨?_, ?_⟩
          · intro y c e hy hc hs
            simp only [List.mem_singleton] at hy
            subst hy
            obtain ⟨rfl, rfl⟩ := only c e hc
            simp only [Entry.isDir, keyOf_child, readAt] at hs ⊢
            rcases hs with hs | hs
            · cases hs
            · rw [if_pos hs, lookup_put, if_pos rfl]
          · intro k hk
            rw [readAt]
            split
            · rename_i hkeep
              rw [lookup_put, if_neg]
              rintro rfl
              exact hk ⟨x, [], .file d, by simp, hg, .inr hkeep, by simp [Entry.isDir, keyOf_child]⟩
            · rfl
    rw [List.foldl_cons]
    generalize hf : readAt keep _ _ files _ = mid at h1 ⊢
    have h2 := readIn ht hq ih L mid (fun y hy => hL y (by simp [hy]))
    refine ⟨?_, ?_⟩
    · intro y c e hy hc hs
      by_cases hyL : y ∈ L
      · exact h2.found y c e hyL hc hs
      · have hyx : y = x := by simpa [hyL] using hy
        subst hyx
        rw [h2.other]
        · exact h1.found y c e (by simp) hc hs
        · rintro ⟨z, c', e', hz, hc', _, he⟩
          have hp1 := hprop y c (by rw [hc]; rfl)
          have hp2 := hprop z c' (by rw [hc']; rfl)
          have := (keyOf_inj (by simp) (by simp) hp1 hp2 he).1
          rw [List.append_cancel_left_eq] at this
          injection this with h3 h4
          exact hyL (h3 ▸ hz)
    · intro k hk
      rw [h2.other k fun ⟨z, c, e, hz, h⟩ => hk ⟨z, c, e, by simp [hz], h⟩,
        h1.other k fun ⟨z, c, e, hz, h⟩ => hk ⟨z, c, e, by simp only [List.mem_singleton] at hz; simp [hz], h⟩]

theorem readDir_reads {keep : Key → Bool} {fs : Fs} {p : Path} (ht : Tree fs p) : ∀ (n : Nat) (q : Path) (k : Key) (files : Files), (∀ x ∈ q, Proper x) →
    0 < n → (∀ c, (fs.get (p ++ q ++ c)).isSome → c.length < n) → (q ≠ [] → fs.get (p ++ q) = some .dir) → dirKey k = keyOf q true →
    Reads keep fs (p ++ q) q files (readDir keep fs n (p ++ q) k files)
  | 0, _, _, _, _, h, _, _, _ => absurd h (by omega)
  | n + 1, q, k, files, hq, _, hn, hd, hk => by
    have hprop : ∀ (c : Path), (fs.get (p ++ q ++ c)).isSome → ∀ z ∈ q ++ c, Proper z := fun c h =>
      ht.names (q ++ c) (by rw [← List.append_assoc]; exact h)
    have h1 := readIn ht hq (n := n) (keep := keep) (fun x files hx hg => by
      rw [List.append_assoc]
      refine readDir_reads ht n (q ++ [x]) _ files ?_ ?_ ?_ ?_ (dirKey_child hx)
      · intro y hy
        rcases List.mem_append.1 hy with hy | hy
        · exact hq y hy
        · simp only [List.mem_singleton] at hy; exact hy ▸ hx
      · have := hn [x] (by rw [hg]; rfl); simp at this; omega
      · intro c hc
        have := hn (x :: c) (by simpa using hc)
        simp at this; omega
      · intro _; rw [← List.append_assoc]; exact hg)
      (fs.names (p ++ q)) (if keyOf q true ≠ [] then put files (keyOf q true) .dir else files) (fun x hx => mem_names.1 hx)
    rw [readDir, hk]
    refine ⟨?_, ?_⟩
    · intro c e hne hc hs
      cases c with
      | cons x c =>
        refine h1.found x c e (mem_names.2 ?_) hc hs
        cases c with
        | nil => rw [hc]; rfl
        | cons y c =>
          have := ht.above (y :: c) (q ++ [x]) (by simp) (by simp) (by simp only [List.append_assoc] at hc; simp [hc])
          rw [← List.append_assoc] at this; rw [this]; rfl
      | nil =>
        simp only [List.append_nil] at hne hc hs ⊢
        rw [hd hne] at hc
        obtain rfl := Option.some.inj hc
        rw [h1.other]
        · simp only [Entry.isDir]
          rw [if_pos (keyOf_ne hne hq), lookup_put, if_pos rfl]
        · rintro ⟨x, c, e, _, hc', _, he⟩
          have := (keyOf_inj hne (by simp) hq (hprop (x :: c) (by rw [hc']; rfl)) he).1
          have := congrArg List.length this
          simp at this
    · intro k' hk'
      rw [h1.other k' fun ⟨x, c, e, _, hc, hs, he⟩ => hk' ⟨x :: c, e, by simp, hc, hs, he⟩]
      split
      · rename_i hne
        rw [lookup_put, if_neg]
        rintro rfl
        have hq0 : q ≠ [] := by rintro rfl; exact hne rfl
        exact hk' ⟨[], .dir, by simpa using hq0, by simpa using hd hq0, .inl rfl, by simp [Entry.isDir]⟩
      · rfl

end Verif.CartDir
