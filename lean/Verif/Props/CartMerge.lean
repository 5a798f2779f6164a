import Verif.CartMergeLemmas
import Verif.Props.CartDir
/-
C78: merging the files of one Picotron cart into another.
-/
namespace Verif.CartDir

theorem lookup_perm {a b : Files} (hp : a.Perm b) (ha : (a.map (·.1)).Nodup) (k : Key) : a.lookup k = b.lookup k := by
  have hb : (b.map (·.1)).Nodup := (hp.map _).nodup_iff.1 ha
  cases h : b.lookup k with
  | some e => exact lookup_of ha (hp.mem_iff.2 (lookup_mem h))
  | none =>
    cases h' : a.lookup k with
    | none => rfl
    | some e => rw [lookup_of hb (hp.mem_iff.1 (lookup_mem h'))] at h; cases h

theorem insertName_perm (x : Key × Entry) : ∀ l : Files, (insertName x l).Perm (x :: l)
  | [] => .refl _
  | y :: l => by
    rw [insertName]
    split
    · exact .refl _
    · exact ((insertName_perm x l).cons y).trans (.swap _ _ _)

theorem sortNames_perm : ∀ l : Files, (sortNames l).Perm l
  | [] => .refl _
  | x :: l => (insertName_perm x _).trans ((sortNames_perm l).cons x)

theorem mergeCart_all {wanted : Key → Bool} {dest src : Files} (hd : Fits dest) (hu : (src.map (·.1)).Nodup)
    (hn : ∀ k e, (k, e) ∈ src → ∃ q : Path, q ≠ [] ∧ (∀ x ∈ q, Proper x) ∧ k = keyOf q e.isDir) :
    Merged wanted dest src (mergeCart wanted dest src) ∧ Named (mergeCart wanted dest src) ∧ Listed (mergeCart wanted dest src) ∧
      ((mergeCart wanted dest src).map (·.1)).Nodup := by
  have hp := sortNames_perm src
  unfold mergeCart
  generalize sortNames src = s at hp ⊢
  have hus : (s.map (·.1)).Nodup := (hp.map _).nodup_iff.2 hu
  obtain ⟨m, h⟩ := mergeAll (wanted := wanted) s dest hus (fun x hx => hn x.1 x.2 (hp.mem_iff.1 hx)) (fun k e h => hd.names k e (lookup_mem h))
    (fun q x b hq hx h => by
      obtain ⟨e, he⟩ := Option.isSome_iff_exists.1 h
      obtain ⟨q', hq', hx', hk⟩ := hd.names _ _ (lookup_mem he)
      have := (keyOf_inj (by simp) hq' hx hx' hk).2
      rw [lookup_of hd.unique (hd.parents q x e hq hx (by rw [← this]; exact lookup_mem he))]; rfl) hd.unique
  refine ⟨?_, h⟩
  have hl := lookup_perm hp hus
  have ha : ∀ q, Above wanted s q ↔ Above wanted src q := fun q => by unfold Above; simp only [hl]
  obtain ⟨m1, m2, m3, m4⟩ := m
  simp only [hl, ha] at m1 m2 m3 m4
  exact ⟨m1, m2, m3, m4⟩

/-- Merging takes the wanted files of the source, keeps all others, and makes exactly the directories that are missing. -/
theorem C78_merged {wanted : Key → Bool} {dest src : Files} (hd : Fits dest) (hu : (src.map (·.1)).Nodup)
    (hn : ∀ k e, (k, e) ∈ src → ∃ q : Path, q ≠ [] ∧ (∀ x ∈ q, Proper x) ∧ k = keyOf q e.isDir) :
    Merged wanted dest src (mergeCart wanted dest src) := (mergeCart_all hd hu hn).1

/-- If nothing is both a file and a directory, the merged cart can be kept as a directory again, even if the source does not list its directories or some of
them are not wanted. -/
theorem C78_fits {wanted : Key → Bool} {dest src : Files} (hd : Fits dest) (hu : (src.map (·.1)).Nodup)
    (hn : ∀ k e, (k, e) ∈ src → ∃ q : Path, q ≠ [] ∧ (∀ x ∈ q, Proper x) ∧ k = keyOf q e.isDir) (hc : NoClash wanted dest src) :
    Fits (mergeCart wanted dest src) := by
  obtain ⟨m, hN, hL, hU⟩ := mergeCart_all (wanted := wanted) hd hu hn
  refine ⟨fun k e h => hN k e (lookup_of hU h), ?_, hU, ?_⟩
  · intro q x e hq hx h
    have := hL q x e.isDir hq hx (by rw [lookup_of hU h]; rfl)
    obtain ⟨e', he⟩ := Option.isSome_iff_exists.1 this
    obtain ⟨q', hq', hx', hk⟩ := hN _ _ he
    have := (keyOf_inj hq hq' (fun y hy => hx y (by simp [hy])) hx' hk).2
    cases e' with
    | file d => cases this
    | dir => exact lookup_mem he
  · intro q d hx h1 h2
    have h1 := lookup_of hU h1
    have h2 := lookup_of hU h2
    by_cases hq : q = []
    · subst hq
      obtain ⟨q', hq', hx', hk⟩ := hN _ _ h1
      exact absurd hk.symm (keyOf_ne hq' hx')
    · -- where a name of the result comes from
      have from_ : ∀ b, ((mergeCart wanted dest src).lookup (keyOf q b)).isSome →
          (wanted (keyOf q b) = true ∧ (src.lookup (keyOf q b)).isSome) ∨ (dest.lookup (keyOf q b)).isSome ∨ (b = true ∧ Above wanted src q) := by
        intro b h
        by_cases a1 : wanted (keyOf q b) = true ∧ (src.lookup (keyOf q b)).isSome
        · exact .inl a1
        · by_cases a2 : (dest.lookup (keyOf q b)).isSome
          · exact .inr (.inl a2)
          · by_cases a3 : b = true ∧ Above wanted src q
            · exact .inr (.inr a3)
            · exfalso
              rw [m.none] at h
              · cases h
              · cases hw : wanted (keyOf q b) with
                | false => exact .inl rfl
                | true => exact .inr (Option.not_isSome_iff_eq_none.1 fun h => a1 ⟨hw, h⟩)
              · exact Option.not_isSome_iff_eq_none.1 a2
              · rintro ⟨q', hq', hk, hab⟩
                have hab' := hab
                obtain ⟨d, _, _, hpd, _⟩ := hab'
                obtain ⟨rfl, rfl⟩ := keyOf_inj hq hq' hx (fun y hy => hpd y (by simp [hy])) hk
                exact a3 ⟨rfl, hab⟩
      refine hc q hq hx ⟨?_, ?_⟩
      · rcases from_ false (by rw [h2]; rfl) with h | h | ⟨h, -⟩
        · exact .inl h
        · exact .inr h
        · cases h
      · rcases from_ true (by rw [h1]; rfl) with h | h | ⟨-, h⟩
        · exact .inl h
        · exact .inr (.inl h)
        · exact .inr (.inr h)

/-- A filtered cart can be kept as a directory if it is merged into an empty cart (instead of merely being filtered, C77_filter_counterexample): exactly the
wanted files are found on disk. -/
theorem C78_filter {wanted : Key → Bool} {c : Files} (hf : Fits c) {fs : Fs} {p : Path} {del : Bool} (hp : Free fs del p) (k : Key) (d : List Nat) :
    (readCart (fun _ => true) (writeCart (mergeCart wanted [] c) del fs p).1 p).lookup k = some (.file d) ↔ wanted k = true ∧ c.lookup k = some (.file d) := by
  have he : Fits [] := ⟨by simp, by simp, by simp, by simp⟩
  have hm := C78_merged (wanted := wanted) he hf.unique hf.names
  have hc : NoClash wanted [] c := by
    rintro q hq hx ⟨h1, h2⟩
    rcases h1 with ⟨-, h1⟩ | h1
    · obtain ⟨e, h1⟩ := Option.isSome_iff_exists.1 h1
      have h1 := lookup_mem h1
      have hfile : ∃ d, e = .file d := by
        obtain ⟨q', hq', hx', hk⟩ := hf.names _ _ h1
        have := (keyOf_inj hq hq' hx hx' hk).2
        cases e with
        | file d => exact ⟨d, rfl⟩
        | dir => cases this
      obtain ⟨d, rfl⟩ := hfile
      have key : (keyOf q true, Entry.dir) ∈ c := by
        rcases h2 with ⟨-, h2⟩ | h2 | ⟨r, b, hr, hx', -, h2⟩
        · obtain ⟨e, h2⟩ := Option.isSome_iff_exists.1 h2
          have h2 := lookup_mem h2
          obtain ⟨q', hq', hx', hk⟩ := hf.names _ _ h2
          have := (keyOf_inj hq hq' hx hx' hk).2
          cases e with
          | file d => cases this
          | dir => exact h2
        · cases h2
        · obtain ⟨e, h2⟩ := Option.isSome_iff_exists.1 h2
          refine hf.above r q hq hr ?_
          have h3 := lookup_mem h2
          obtain ⟨q', hq', hx'', hk⟩ := hf.names _ _ h3
          have := (keyOf_inj (by simp [hq]) hq' hx' hx'' hk).2
          rw [(cartAt_iff hf (by simp [hq])).2 ⟨hx', by rw [← this]; exact h3⟩]; rfl
      exact hf.one q d hx key h1
    · cases h1
  rw [C77_round_trip (C78_fits he hf.unique hf.names hc) hp]
  constructor
  · intro h
    by_cases a1 : wanted k = true ∧ (c.lookup k).isSome
    · rw [hm.taken k a1.1 a1.2] at h
      exact ⟨a1.1, h⟩
    · have hor : wanted k = false ∨ c.lookup k = none := by
        cases hw : wanted k with
        | false => exact .inl rfl
        | true => exact .inr (Option.not_isSome_iff_eq_none.1 fun h => a1 ⟨hw, h⟩)
      by_cases a2 : ∃ q : Path, q ≠ [] ∧ k = keyOf q true ∧ Above wanted c q
      · obtain ⟨q, hq, rfl, ha⟩ := a2
        rw [hm.made q hq hor rfl ha] at h; cases h
      · rw [hm.none k hor rfl a2] at h; cases h
  · rintro ⟨h1, h2⟩
    rw [hm.taken k h1 (by rw [h2]; rfl), h2]

/-! ### Examples -/

/-- The files of another cart, without their directories. -/
def demoSrc : Files := [(chars "lib/a/x.lua", .file [7]), (chars "main.lua", .file [8]), (chars "gfx/0.gfx", .file [9])]

def notGfx (k : Key) : Bool := !(chars "gfx").isPrefixOf k

/-- The cart merged into. -/
def demoDest : Files := [(chars "main.lua", .file [1]), (chars "gfx/", .dir), (chars "gfx/0.gfx", .file [2])]

/-- No clash can be seen from the names: none is in another. -/
theorem noClash_of {wanted : Key → Bool} {dest src : Files} (h : ∀ k ∈ dest.map (·.1) ++ src.map (·.1), ∀ k' ∈ dest.map (·.1) ++ src.map (·.1), ¬ k ++ [47] <+: k') :
    NoClash wanted dest src := by
  rintro q hq hx ⟨h1, h2⟩
  have mem : ∀ {c : Files} {k : Key}, (c.lookup k).isSome → k ∈ c.map (·.1) := fun h => by
    obtain ⟨e, he⟩ := Option.isSome_iff_exists.1 h
    exact List.mem_map.2 ⟨_, lookup_mem he, rfl⟩
  have m1 : keyOf q false ∈ dest.map (·.1) ++ src.map (·.1) := by
    rcases h1 with ⟨-, h1⟩ | h1
    · exact List.mem_append_right _ (mem h1)
    · exact List.mem_append_left _ (mem h1)
  have e : keyOf q false ++ [47] = keyOf q true := by
    obtain ⟨r, x, rfl⟩ : ∃ r x, q = r ++ [x] := ⟨q.dropLast, q.getLast hq, (List.dropLast_concat_getLast hq).symm⟩
    rw [keyOf_concat, keyOf_concat]; simp
  rcases h2 with ⟨-, h2⟩ | h2 | ⟨d, b, hd, -, -, h2⟩
  · exact h _ m1 _ (List.mem_append_right _ (mem h2)) (by rw [e]; exact List.prefix_refl _)
  · exact h _ m1 _ (List.mem_append_left _ (mem h2)) (by rw [e]; exact List.prefix_refl _)
  · exact h _ m1 _ (List.mem_append_right _ (mem h2)) (by rw [e, keyOf_append _ _ _ hq hd]; exact List.prefix_append _ _)

-- what is assumed holds for these
example : Fits demoDest :=
  fits_ofPaths (l := [([chars "main.lua"], .file [1]), ([chars "gfx"], .dir), ([chars "gfx", chars "0.gfx"], .file [2])]) (by decide +kernel) (by decide +kernel)
    (by decide +kernel)
example : (demoSrc.map (·.1)).Nodup := by decide +kernel
example : ∀ k e, (k, e) ∈ demoSrc → ∃ q : Path, q ≠ [] ∧ (∀ x ∈ q, Proper x) ∧ k = keyOf q e.isDir := by
  intro k e h
  simp only [demoSrc, List.mem_cons, Prod.mk.injEq, List.not_mem_nil, or_false] at h
  rcases h with ⟨rfl, rfl⟩ | ⟨rfl, rfl⟩ | ⟨rfl, rfl⟩
  · exact ⟨[chars "lib", chars "a", chars "x.lua"], by decide +kernel⟩
  · exact ⟨[chars "main.lua"], by decide +kernel⟩
  · exact ⟨[chars "gfx", chars "0.gfx"], by decide +kernel⟩
example : NoClash notGfx demoDest demoSrc := noClash_of (by decide +kernel)

example : mergeCart notGfx demoDest demoSrc =
    [(chars "main.lua", .file [8]), (chars "gfx/", .dir), (chars "gfx/0.gfx", .file [2]), (chars "lib/a/x.lua", .file [7]), (chars "lib/a/", .dir),
      (chars "lib/", .dir)] := by decide +kernel

/-- Without that, merging gives a cart that cannot be written to a directory. -/
theorem C78_clash_counterexample :
    let dest : Files := [(chars "a", .file [1])]
    let src : Files := [(chars "a/b", .file [2])]
    (writeCart dest false [] [chars "out"]).2 = true ∧ (writeCart (mergeCart (fun _ => true) [] src) false [] [chars "out"]).2 = true ∧
      (writeCart (mergeCart (fun _ => true) dest src) false [] [chars "out"]).2 = false := by decide +kernel

end Verif.CartDir
