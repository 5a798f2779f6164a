import Verif.Preprocess
import Verif.Props.SourceMap
/-!
C43: include expansion and its source map; the source map part of C45.
-/
namespace Verif

/-- Where a character comes from: the file (path and text), the position in it and the line number of the text in the file. -/
structure Origin where
  path : List Nat
  code : List Nat
  pos : Nat
  line : Nat
deriving DecidableEq

/-- The mappings send position `p` of `out` to `orig[p]`. -/
def HasOrigins (maps : List CodeMap) (out : List Nat) (orig : List Origin) : Prop :=
  orig.length = out.length ∧
    ∀ (p : Nat) (o : Origin), orig[p]? = some o → ∃ m q, mapLookup maps p = some (m, q) ∧ o = ⟨m.path, m.code, q, m.line⟩

/-- The characters of a text from position `a`, `n` of them. -/
def ownOrigins (path code : List Nat) (line a n : Nat) : List Origin := (List.range n).map fun k => ⟨path, code, a + k, line⟩

/-- The origins of the characters of an included cart: what its own mappings say, or its own text if it has none. -/
def IncOrigins (c : Included) (g : List Origin) : Prop :=
  if c.maps = [] then g = ownOrigins c.path c.code 0 0 c.code.length else HasOrigins c.maps c.code g

/-- `code` has an include line from `b` to `e` that names `arg`: at the start of a line, some blanks, `#include`, some space and `arg`. -/
def IncludeLine (code : List Nat) (b e : Nat) (arg : List Nat) : Prop :=
  (b = 0 ∨ code[b - 1]? = some 10) ∧
  ∃ blanks space, (∀ c ∈ blanks, c = 32 ∨ c = 9 ∨ c = 13) ∧ space ≠ [] ∧ (∀ c ∈ space, pyIsSpace c = true) ∧
    (∃ a, arg.head? = some a ∧ pyIsSpace a = false) ∧ 10 ∉ space ++ arg ∧
    e = b + (blanks ++ includeWord ++ space ++ arg).length ∧ code.drop b = (blanks ++ includeWord ++ space ++ arg) ++ code.drop e ∧
    (e = code.length ∨ code[e]? = some 10)

/-- Specification: expanding the first `i` characters of `code` gives `out` with the given origins: each character is kept (possible where
`keep` holds), or an include line (that starts where `took` holds) is replaced by the included code. -/
inductive Expands (keep took : Nat → Prop) (path code : List Nat) (line : Nat) (inc : List Nat → Option Included) : Nat → List Nat → List Origin → Prop
  | nil : Expands keep took path code line inc 0 [] []
  | char {i c out orig} (h : Expands keep took path code line inc i out orig) (hc : code[i]? = some c) (hk : keep i) :
      Expands keep took path code line inc (i + 1) (out ++ [c]) (orig ++ [⟨path, code, i, line⟩])
  | incl {b e arg c g out orig} (h : Expands keep took path code line inc b out orig) (hl : IncludeLine code b e arg) (ht : took b) (hi : inc arg = some c)
      (hg : IncOrigins c g) : Expands keep took path code line inc e (out ++ c.code) (orig ++ g)

variable {keep took : Nat → Prop}

theorem mapLookup_append_right {ms ns : List CodeMap} {p : Nat} {r} (h : mapLookup ns p = some r) : mapLookup (ms ++ ns) p = some r := by
  unfold mapLookup at *
  rw [List.reverse_append, List.find?_append]
  cases hf : ns.reverse.find? (fun m => decide (p ≥ m.idx)) with
  | none => rw [hf] at h; cases h
  | some m => rw [hf] at h; exact h

theorem mapLookup_append_left {ms ns : List CodeMap} {p : Nat} (h : ∀ m ∈ ns, p < m.idx) : mapLookup (ms ++ ns) p = mapLookup ms p := by
  unfold mapLookup
  rw [List.reverse_append, List.find?_append]
  have : ns.reverse.find? (fun m => decide (p ≥ m.idx)) = none := by
    rw [List.find?_eq_none]
    intro m hm
    have := h m (by simpa using hm)
    simp; omega
  rw [this]; rfl

theorem mapLookup_shift (ms : List CodeMap) (k p : Nat) :
    mapLookup (ms.map fun m => { m with idx := k + m.idx }) (k + p) =
      (mapLookup ms p).map fun r => ({ r.1 with idx := k + r.1.idx }, r.2) := by
  unfold mapLookup
  rw [← List.map_reverse, List.find?_map]
  have : ((fun m : CodeMap => decide (k + p ≥ m.idx)) ∘ fun m : CodeMap => { m with idx := k + m.idx }) = fun m => decide (p ≥ m.idx) := by
    funext m; simp
  rw [this]
  cases ms.reverse.find? (fun m => decide (p ≥ m.idx)) with
  | none => rfl
  | some m =>
    simp only [Option.map_some, Option.some.injEq, Prod.mk.injEq, true_and]
    omega

theorem hasOrigins_append {ms ns : List CodeMap} {a b : List Nat} {g g' : List Origin} (h1 : HasOrigins ms a g) (h2 : HasOrigins ns b g') :
    HasOrigins (ms ++ ns.map fun m => { m with idx := a.length + m.idx }) (a ++ b) (g ++ g') := by
  refine ⟨by simp [h1.1, h2.1], ?_⟩
  intro p o hp
  rcases Nat.lt_or_ge p g.length with h | h
  · rw [List.getElem?_append_left h] at hp
    rw [mapLookup_append_left]
    · exact h1.2 p o hp
    · intro m hm
      obtain ⟨m', _, rfl⟩ := List.mem_map.1 hm
      have := h1.1
      simp; omega
  · rw [List.getElem?_append_right h] at hp
    obtain ⟨m, q, h3, h4⟩ := h2.2 _ o hp
    refine ⟨{ m with idx := a.length + m.idx }, q, mapLookup_append_right ?_, h4⟩
    have : p = a.length + (p - g.length) := by have := h1.1; omega
    rw [this, mapLookup_shift, h3]; rfl

theorem hasOrigins_own (path code out : List Nat) (line a : Nat) :
    HasOrigins [⟨0, path, code, a, line⟩] out (ownOrigins path code line a out.length) := by
  refine ⟨by simp [ownOrigins], ?_⟩
  intro p o hp
  simp only [ownOrigins, List.getElem?_map, Option.map_eq_some_iff] at hp
  obtain ⟨k, hk, rfl⟩ := hp
  rw [List.getElem?_eq_some_iff] at hk
  obtain ⟨_, hk⟩ := hk
  simp at hk; subst hk
  exact ⟨_, _, rfl, by simp⟩

theorem hasOrigins_mapsAt {ms : List CodeMap} {a : List Nat} {g gi : List Origin} {c : Included} (h1 : HasOrigins ms a g) (h2 : IncOrigins c gi) :
    HasOrigins (ms ++ c.mapsAt a.length) (a ++ c.code) (g ++ gi) := by
  unfold IncOrigins at h2
  unfold Included.mapsAt
  by_cases h : c.maps = []
  · rw [if_pos h] at h2 ⊢
    subst h2
    exact hasOrigins_append (ns := [⟨0, c.path, c.code, 0, 0⟩]) h1 (hasOrigins_own _ _ _ _ _)
  · rw [if_neg h] at h2 ⊢
    exact hasOrigins_append h1 h2

theorem expands_slice {path code : List Nat} {line : Nat} {inc} {a : Nat} {o : List Nat} {g : List Origin}
    (h : Expands keep took path code line inc a o g) : ∀ n, a + n ≤ code.length → (∀ j, a ≤ j → j < a + n → keep j) →
    Expands keep took path code line inc (a + n) (o ++ (code.drop a).take n) (g ++ ownOrigins path code line a n)
  | 0, _, _ => by simpa [ownOrigins] using h
  | n + 1, hn, hk => by
    have ih := expands_slice h n (by omega) (fun j h1 h2 => hk j h1 (by omega))
    obtain ⟨c, hc⟩ : ∃ c, code[a + n]? = some c := ⟨code[a + n], List.getElem?_eq_getElem (by omega)⟩
    have := Expands.char ih hc (hk (a + n) (by omega) (by omega))
    have e1 : (code.drop a).take (n + 1) = (code.drop a).take n ++ [c] := by
      rw [List.take_add_one, List.getElem?_drop, hc]; rfl
    have e2 : ownOrigins path code line a (n + 1) = ownOrigins path code line a n ++ [⟨path, code, a + n, line⟩] := by
      simp [ownOrigins, List.range_succ]
    rw [e1, e2, ← List.append_assoc, ← List.append_assoc, ← Nat.add_assoc]
    exact this

/-! Facts about the scanner. -/

theorem skipLong_ge {code : List Nat} {i j : Nat} (h : skipLong code i = some j) : i < j := by
  unfold skipLong at h
  split at h
  · simp only at h
    split at h
    · simp only [Option.map_eq_some_iff] at h
      obtain ⟨k, _, rfl⟩ := h
      omega
    · cases h
  · cases h

theorem strEnd_ge (q : Nat) : ∀ (s : List Nat) (i : Nat), i < strEnd q s i
  | [], i => by simp [strEnd]
  | c :: cs, i => by
    unfold strEnd
    split
    · omega
    · split
      · cases cs with
        | nil => simp
        | cons d cs => simp only; have := strEnd_ge q cs (i + 2); omega
      · have := strEnd_ge q cs (i + 1); omega

theorem backUp_spec {code : List Nat} : ∀ {i b : Nat}, backUp code i = some b →
    b ≤ i ∧ (b = 0 ∨ code[b - 1]? = some 10) ∧ ∀ k, b ≤ k → k < i → ∃ c, code[k]? = some c ∧ isWs c = true ∧ c ≠ 10
  | 0, b, h => by
    simp [backUp] at h; subst h
    exact ⟨Nat.le_refl _, Or.inl rfl, fun k _ hk => absurd hk (by omega)⟩
  | i + 1, b, h => by
    simp only [backUp] at h
    cases hc : code[i]? with
    | none => rw [hc] at h; cases h
    | some c =>
      rw [hc] at h
      simp only at h
      by_cases hw : isWs c = true
      · rw [if_pos hw] at h
        by_cases hn : c = 10
        · rw [if_pos hn] at h; cases h
          exact ⟨Nat.le_refl _, Or.inr (by simpa [hn] using hc), fun k h1 h2 => absurd h1 (by omega)⟩
        · rw [if_neg hn] at h
          obtain ⟨h1, h2, h3⟩ := backUp_spec h
          refine ⟨by omega, h2, ?_⟩
          intro k h4 h5
          rcases Nat.lt_or_ge k i with h6 | h6
          · exact h3 k h4 h6
          · have : k = i := by omega
            subst this; exact ⟨c, hc, hw, hn⟩
      · rw [if_neg hw] at h; cases h

theorem takeWhile_cases (p : Nat → Bool) : ∀ s : List Nat, ∃ t r, s = t ++ r ∧ t = s.takeWhile p ∧ (∀ c ∈ t, p c = true) ∧
    (r = [] ∨ ∃ a l, r = a :: l ∧ p a = false)
  | [] => ⟨[], [], rfl, rfl, by simp, Or.inl rfl⟩
  | c :: cs => by
    by_cases h : p c = true
    · obtain ⟨t, r, e1, e2, e3, e4⟩ := takeWhile_cases p cs
      refine ⟨c :: t, r, by rw [e1]; rfl, by rw [List.takeWhile_cons, if_pos h, e2], ?_, e4⟩
      intro x hx
      rcases List.mem_cons.1 hx with rfl | hx
      · exact h
      · exact e3 x hx
    · exact ⟨[], c :: cs, rfl, by rw [List.takeWhile_cons, if_neg h], by simp, Or.inr ⟨c, cs, rfl, by simpa using h⟩⟩

theorem toEol_spec (code : List Nat) (i : Nat) (h : i ≤ code.length) :
    i ≤ toEol code i ∧ toEol code i ≤ code.length ∧ (toEol code i = code.length ∨ code[toEol code i]? = some 10) ∧
      10 ∉ (code.drop i).take (toEol code i - i) := by
  obtain ⟨t, r, e1, e2, e3, e4⟩ := takeWhile_cases (· != 10) (code.drop i)
  have hle : toEol code i = i + t.length := by rw [e2]; rfl
  have hlen := congrArg List.length e1
  simp only [List.length_append, List.length_drop] at hlen
  refine ⟨by omega, by omega, ?_, ?_⟩
  · rcases e4 with e4 | ⟨a, l, e4, e5⟩
    · left; rw [e4] at hlen; simp at hlen; omega
    · right
      have ha : a = 10 := by simpa using e5
      rw [hle, ← List.getElem?_drop, e1, List.getElem?_append_right (Nat.le_refl _), Nat.sub_self, e4, ha]
      rfl
  · have : toEol code i - i = t.length := by omega
    rw [this, e1, List.take_left]
    intro hm
    have := e3 _ hm
    simp at this

theorem includeArg_spec {line arg : List Nat} (h : includeArg line = some arg) :
    ∃ space, line = includeWord ++ space ++ arg ∧ space ≠ [] ∧ (∀ c ∈ space, pyIsSpace c = true) ∧
      ∃ a, arg.head? = some a ∧ pyIsSpace a = false := by
  unfold includeArg at h
  simp only at h
  split at h
  · rename_i hc
    obtain ⟨h1, h2⟩ := hc
    simp only [Option.some.injEq] at h
    have e1 : line = includeWord ++ line.drop includeWord.length := by
      have := List.takeWhile_append_dropWhile (p := fun c => !pyIsSpace c) (l := line)
      rw [h1] at this
      rw [← this]; simp
    rw [h1] at h h2
    have e2 := List.takeWhile_append_dropWhile (p := pyIsSpace) (l := line.drop includeWord.length)
    rw [h] at e2 h2
    refine ⟨(line.drop includeWord.length).takeWhile pyIsSpace, ?_, ?_, ?_, ?_⟩
    · rw [List.append_assoc, e2]; exact e1
    · intro hnil
      rw [hnil, List.nil_append] at e2
      have hh : line.dropWhile (fun c => !pyIsSpace c) = arg := by
        have := List.takeWhile_append_dropWhile (p := fun c => !pyIsSpace c) (l := line)
        rw [h1] at this
        have e3 := e1
        rw [← e2] at e3
        rw [e3] at this ⊢
        exact List.append_cancel_left this
      have hne : line.dropWhile (fun c => !pyIsSpace c) ≠ [] := by rw [hh]; exact h2
      have := List.head_dropWhile_not (fun c => !pyIsSpace c) (l := line) hne
      simp only [hh] at this
      have hne' : (line.drop includeWord.length).dropWhile pyIsSpace ≠ [] := by rw [h]; exact h2
      have h5 := List.head_dropWhile_not pyIsSpace (l := line.drop includeWord.length) hne'
      simp only [h] at h5
      rw [h5] at this; simp at this
    · obtain ⟨t, r, _, e2, e3, _⟩ := takeWhile_cases pyIsSpace (line.drop includeWord.length)
      rw [← e2]; exact e3
    · have hne' : (line.drop includeWord.length).dropWhile pyIsSpace ≠ [] := by rw [h]; exact h2
      have h5 := List.head_dropWhile_not pyIsSpace (l := line.drop includeWord.length) hne'
      simp only [h] at h5
      exact ⟨arg.head h2, List.head?_eq_some_head h2, h5⟩
  · cases h

/-- A character that stops `backUp`. -/
def StopAt (code : List Nat) (k : Nat) : Prop := ∃ c, code[k]? = some c ∧ (isWs c = false ∨ c = 10)

/-- The invariant of the main loop. -/
structure PrepInv (keep took : Nat → Prop) (path code : List Nat) (line : Nat) (inc : List Nat → Option Included) (s : Prep) : Prop where
  exp : ∃ g, Expands keep took path code line inc s.start s.out g ∧ HasOrigins s.maps s.out g
  outI : s.outI = s.out.length
  le : s.start ≤ s.i
  len : s.start ≤ code.length
  stop : s.start = 0 ∨ (∃ k, s.start ≤ k ∧ k < s.i ∧ StopAt code k) ∨ (s.i = s.start ∧ (s.i = code.length ∨ code[s.i]? = some 10))

theorem PrepInv.move {path code : List Nat} {line : Nat} {inc} {s : Prep} (h : PrepInv keep took path code line inc s) {j : Nat} (hj : s.i ≤ j)
    (hlt : s.i < code.length) : PrepInv keep took path code line inc { s with i := j } := by
  refine ⟨h.exp, h.outI, Nat.le_trans h.le hj, h.len, ?_⟩
  rcases h.stop with h1 | ⟨k, h1, h2, h3⟩ | ⟨h1, h2⟩
  · exact Or.inl h1
  · exact Or.inr (Or.inl ⟨k, h1, Nat.lt_of_lt_of_le h2 hj, h3⟩)
  · rcases Nat.lt_or_ge s.i j with h3 | h3
    · refine Or.inr (Or.inl ⟨s.i, Nat.le_of_eq h1.symm, h3, 10, ?_, Or.inr rfl⟩)
      rcases h2 with h2 | h2
      · omega
      · exact h2
    · have : j = s.i := by omega
      subst this
      exact Or.inr (Or.inr ⟨h1, h2⟩)

theorem flush_inv {path code : List Nat} {line : Nat} {inc} {s : Prep} (h : ∃ g, Expands keep took path code line inc s.start s.out g ∧ HasOrigins s.maps s.out g)
    (hI : s.outI = s.out.length) {b : Nat} (h1 : s.start ≤ b) (h2 : b ≤ code.length)
    (hk : ∀ j, s.start ≤ j → j < b → keep j) :
    let s' := Prep.flush path code line { s with i := b }
    (∃ g, Expands keep took path code line inc b s'.out g ∧ HasOrigins s'.maps s'.out g) ∧ s'.outI = s'.out.length ∧ s'.start = b := by
  obtain ⟨g, hg, hm⟩ := h
  unfold Prep.flush
  by_cases hlt : b > s.start
  · simp only [if_pos hlt]
    have hlen : ((code.drop s.start).take (b - s.start)).length = b - s.start := by simp; omega
    refine ⟨⟨g ++ ownOrigins path code line s.start (b - s.start), ?_, ?_⟩, ?_, trivial⟩
    · have := expands_slice hg (b - s.start) (by omega) (fun j a1 a2 => hk j a1 (by omega))
      rwa [Nat.add_sub_of_le h1] at this
    · have := hasOrigins_append hm (hasOrigins_own path code ((code.drop s.start).take (b - s.start)) line s.start)
      rw [hlen] at this
      rw [hI]
      exact this
    · rw [List.length_append, hlen, hI]
  · simp only [if_neg hlt]
    have : s.start = b := by omega
    exact ⟨⟨g, by rw [← this]; exact hg, hm⟩, hI, trivial⟩

theorem isWs_blank {c : Nat} (h1 : isWs c = true) (h2 : c ≠ 10) : c = 32 ∨ c = 9 ∨ c = 13 := by
  simp [isWs] at h1; omega

theorem includeLine_of {code : List Nat} {i b : Nat} {arg : List Nat} (hlt : i < code.length) (hb : backUp code i = some b)
    (ha : includeArg ((code.drop i).take (toEol code i - i)) = some arg) : IncludeLine code b (toEol code i) arg := by
  obtain ⟨b1, b2, b3⟩ := backUp_spec hb
  obtain ⟨t1, t2, t3, t4⟩ := toEol_spec code i (Nat.le_of_lt hlt)
  obtain ⟨space, a1, a2, a3, a4⟩ := includeArg_spec ha
  have hlen : ((code.drop i).take (toEol code i - i)).length = toEol code i - i := by simp; omega
  have hblen : ((code.drop b).take (i - b)).length = i - b := by simp; omega
  refine ⟨b2, (code.drop b).take (i - b), space, ?_, a2, a3, a4, ?_, ?_, ?_, t3⟩
  · intro x hx
    obtain ⟨k, hk⟩ := List.mem_iff_getElem?.1 hx
    rw [List.getElem?_take, List.getElem?_drop] at hk
    split at hk
    · obtain ⟨y, y1, y2, y3⟩ := b3 (b + k) (by omega) (by omega)
      rw [hk] at y1; cases y1
      exact isWs_blank y2 y3
    · cases hk
  · intro hm
    refine t4 ?_
    rw [a1, List.append_assoc]
    exact List.mem_append_right _ hm
  · have := congrArg List.length a1
    rw [hlen] at this
    simp only [List.length_append] at this ⊢
    omega
  · have e1 := slice_to (s := code) b1
    have e2 := slice_to (s := code) t1
    rw [a1] at e2
    rw [e2] at e1
    rw [e1]
    have e3 : ((code.drop b).take (i - b) ++ (includeWord ++ space ++ arg ++ code.drop (toEol code i))).take (i - b) = (code.drop b).take (i - b) := by
      rw [← e1]
    rw [e3]
    simp only [List.append_assoc]

theorem prepStep_inv {path code : List Nat} {line : Nat} {inc : List Nat → Option Included}
    (hinc : ∀ arg c, inc arg = some c → ∃ g, IncOrigins c g) {s s' : Prep}
    (h : PrepInv keep took path code line inc s) (hlt : s.i < code.length)
    (hk : ∀ b, backUp code s.i = some b → ∀ j, s.start ≤ j → j < b → keep j)
    (ht : ∀ b, backUp code s.i = some b → code[s.i]? = some 35 → took b)
    (hs : prepStep path code line inc s = some s') : PrepInv keep took path code line inc s' := by
  unfold prepStep at hs
  simp only at hs
  split at hs
  · cases hs
    refine h.move ?_ hlt
    cases hk : skipLong code (s.i + 2) with
    | none => simp only [Option.getD_none]; unfold toEol; omega
    | some j => have := skipLong_ge hk; simp only [Option.getD_some]; omega
  split at hs
  · cases hs
    refine h.move ?_ hlt
    cases hk : skipLong code s.i with
    | none => simp
    | some j => have := skipLong_ge hk; simp only [Option.getD_some]; omega
  split at hs
  · cases hs
    refine h.move ?_ hlt
    have := strEnd_ge ((code[s.i]?).getD 0) (code.drop (s.i + 1)) (s.i + 1)
    omega
  split at hs
  · cases hs; exact h.move (by omega) hlt
  rename_i h1 h2 h3 hhash
  have hhash : code[s.i]? = some 35 := by simpa using hhash
  split at hs
  · cases hb : backUp code s.i with
    | none => rw [hb] at hs; cases hs; exact h.move (by omega) hlt
    | some b =>
      rw [hb] at hs
      simp only at hs
      obtain ⟨b1, b2, b3⟩ := backUp_spec hb
      have hsb : s.start ≤ b := by
        rcases h.stop with h1 | ⟨k, h1, h2, c, h3, h4⟩ | ⟨h1, h2⟩
        · omega
        · rcases Nat.lt_or_ge k b with h5 | h5
          · omega
          · obtain ⟨d, d1, d2, d3⟩ := b3 k h5 h2
            rw [h3] at d1; cases d1
            rcases h4 with h4 | h4
            · rw [d2] at h4; cases h4
            · exact absurd h4 d3
        · rcases h2 with h2 | h2
          · omega
          · rw [hhash] at h2; cases h2
      obtain ⟨f1, f2, f3⟩ := flush_inv (path := path) (line := line) h.exp h.outI hsb (by omega : b ≤ code.length) (hk b hb)
      generalize Prep.flush path code line { s with i := b } = t at hs f1 f2 f3
      cases ha : includeArg ((code.drop s.i).take (toEol code s.i - s.i)) with
      | none =>
        rw [ha] at hs; cases hs
        refine ⟨by rw [f3]; exact f1, f2, by simp only; omega, by simp only; omega, Or.inr (Or.inl ⟨s.i, by simp only; omega, by simp, 35, hhash, Or.inl rfl⟩)⟩
      | some arg =>
        rw [ha] at hs
        simp only at hs
        cases hi : inc arg with
        | none => rw [hi] at hs; cases hs
        | some c =>
          rw [hi] at hs; cases hs
          obtain ⟨t1, t2, t3, t4⟩ := toEol_spec code s.i (Nat.le_of_lt hlt)
          obtain ⟨g, g1, g2⟩ := f1
          obtain ⟨gi, hgi⟩ := hinc arg c hi
          have hline := includeLine_of hlt hb ha
          refine ⟨⟨g ++ gi, Expands.incl g1 hline (ht b hb hhash) hi hgi, ?_⟩, ?_, Nat.le_refl _, t2, Or.inr (Or.inr ⟨rfl, t3⟩)⟩
          · rw [f2]; exact hasOrigins_mapsAt g2 hgi
          · simp only [List.length_append]; omega
  · cases hs; exact h.move (by omega) hlt

theorem prepLoop_spec {path code : List Nat} {line : Nat} {inc : List Nat → Option Included}
    (hinc : ∀ arg c, inc arg = some c → ∃ g, IncOrigins c g) (aux : Prep → Prop)
    (haux : ∀ s s', aux s → s.i < code.length → prepStep path code line inc s = some s' → aux s')
    (hk : ∀ s, aux s → s.i < code.length → ∀ b, backUp code s.i = some b → ∀ j, s.start ≤ j → j < b → keep j)
    (ht : ∀ s, aux s → s.i < code.length → ∀ b, backUp code s.i = some b → code[s.i]? = some 35 → took b)
    (hend : ∀ s, aux s → ¬ s.i < code.length → ∀ j, s.start ≤ j → j < code.length → keep j) :
    ∀ (fuel : Nat) (s s' : Prep), aux s → PrepInv keep took path code line inc s →
    prepLoop path code line inc fuel s = some s' → ∃ g, Expands keep took path code line inc code.length s'.out g ∧ HasOrigins s'.maps s'.out g := by
  have done : ∀ s : Prep, aux s → PrepInv keep took path code line inc s → ¬ s.i < code.length →
      ∃ g, Expands keep took path code line inc code.length (s.flush path code line).out g ∧ HasOrigins (s.flush path code line).maps (s.flush path code line).out g := by
    intro s ha h hn
    obtain ⟨f1, -, -⟩ := flush_inv (path := path) (line := line) h.exp h.outI h.len (Nat.le_refl _) (hend s ha hn)
    have hge : code.length ≤ s.i := by omega
    unfold Prep.flush at f1 ⊢
    simp only at f1
    by_cases h1 : s.i > s.start
    · by_cases h2 : code.length > s.start
      · rw [if_pos h2] at f1; rw [if_pos h1]
        have e : (code.drop s.start).take (code.length - s.start) = (code.drop s.start).take (s.i - s.start) := by
          rw [List.take_of_length_le (by simp), List.take_of_length_le (by simp; omega)]
        rw [e] at f1
        exact f1
      · rw [if_neg h2] at f1; rw [if_pos h1]
        have e : (code.drop s.start).take (s.i - s.start) = [] := by
          rw [List.drop_eq_nil_of_le (by omega), List.take_nil]
        obtain ⟨g, g1, g2⟩ := f1
        refine ⟨g, by simpa [e] using g1, ?_⟩
        have := hasOrigins_append g2 (hasOrigins_own path code [] line s.start)
        simpa [e, ownOrigins, h.outI] using this
    · rw [if_neg h1]
      have h2 : ¬ code.length > s.start := by have := h.le; omega
      rw [if_neg h2] at f1
      exact f1
  intro fuel
  induction fuel with
  | zero =>
    intro s s' ha h hs
    simp only [prepLoop] at hs
    split at hs
    · cases hs
    · rename_i hn; cases hs; exact done s ha h hn
  | succ fuel ih =>
    intro s s' ha h hs
    simp only [prepLoop] at hs
    split at hs
    · rename_i hlt
      cases hst : prepStep path code line inc s with
      | none => rw [hst] at hs; cases hs
      | some t =>
        rw [hst] at hs
        exact ih t s' (haux s t ha hlt hst) (prepStep_inv hinc h hlt (hk s ha hlt) (ht s ha hlt) hst) hs
    · rename_i hn; cases hs; exact done s ha h hn

/-- Whenever preprocessing ends, its output is the code with include lines replaced by the included code, and looking up a position of the
output gives the file and the position that the character came from. -/
theorem C43_exact (path code : List Nat) (line : Nat) (inc : List Nat → Option Included)
    (hinc : ∀ arg c, inc arg = some c → ∃ g, IncOrigins c g) (fuel : Nat) (out : List Nat) (maps : List CodeMap)
    (h : preprocess path code line inc fuel = some (out, maps)) :
    ∃ orig, Expands (fun _ => True) (fun _ => True) path code line inc code.length out orig ∧ HasOrigins maps out orig := by
  unfold preprocess at h
  cases hl : prepLoop path code line inc fuel ⟨0, 0, 0, [], []⟩ with
  | none => rw [hl] at h; cases h
  | some s =>
    rw [hl] at h; cases h
    exact prepLoop_spec hinc (fun _ => True) (fun _ _ _ _ _ => trivial) (fun _ _ _ _ _ _ _ _ => trivial) (fun _ _ _ _ _ _ => trivial) (fun _ _ _ _ _ _ => trivial) fuel _ s
      trivial ⟨⟨[], Expands.nil, rfl, by simp⟩, rfl, Nat.le_refl _, Nat.zero_le _, Or.inl rfl⟩ hl

/-- Nested includes: what preprocessing returns satisfies the hypothesis of `C43_exact` about included carts. -/
theorem C43_nested (path code : List Nat) (line : Nat) (inc : List Nat → Option Included)
    (hinc : ∀ arg c, inc arg = some c → ∃ g, IncOrigins c g) (fuel : Nat) (out : List Nat) (maps : List CodeMap)
    (h : preprocess path code line inc fuel = some (out, maps)) : ∃ g, IncOrigins ⟨path, out, maps⟩ g := by
  obtain ⟨g, -, hg⟩ := C43_exact path code line inc hinc fuel out maps h
  by_cases hm : maps = []
  · exact ⟨ownOrigins path out 0 0 out.length, by unfold IncOrigins; simp [hm]⟩
  · refine ⟨g, ?_⟩
    unfold IncOrigins
    simpa only [hm, if_false] using hg

/-- The origin of a character really holds this character. -/
def TrueOrigins (out : List Nat) (orig : List Origin) : Prop := orig.length = out.length ∧ ∀ (p : Nat) (o : Origin), orig[p]? = some o → o.code[o.pos]? = out[p]?

theorem trueOrigins_append {a b : List Nat} {g g' : List Origin} (h1 : TrueOrigins a g) (h2 : TrueOrigins b g') : TrueOrigins (a ++ b) (g ++ g') := by
  refine ⟨by simp [h1.1, h2.1], ?_⟩
  intro p o hp
  rcases Nat.lt_or_ge p g.length with h | h
  · rw [List.getElem?_append_left h] at hp
    rw [List.getElem?_append_left (by have := h1.1; omega)]
    exact h1.2 p o hp
  · rw [List.getElem?_append_right h] at hp
    rw [List.getElem?_append_right (by have := h1.1; omega), ← h1.1]
    exact h2.2 _ o hp

/-- Each character of the output is the character at its origin, if this holds for the included carts. -/
theorem C43_true (path code : List Nat) (line : Nat) (inc : List Nat → Option Included)
    (hinc : ∀ arg c g, inc arg = some c → IncOrigins c g → TrueOrigins c.code g) {i : Nat} {out : List Nat} {orig : List Origin}
    (h : Expands keep took path code line inc i out orig) : TrueOrigins out orig := by
  induction h with
  | nil => exact ⟨rfl, by simp⟩
  | char h hc _ ih =>
    refine trueOrigins_append ih ⟨rfl, ?_⟩
    intro p o hp
    cases p with
    | zero => simp at hp; subst hp; simpa using hc
    | succ p => simp at hp
  | incl h hl ht hi hg ih => exact trueOrigins_append ih (hinc _ _ _ hi hg)

/-- Code without include lines is unchanged, and every position maps to itself. -/
theorem C43_no_includes (path code : List Nat) (line : Nat) (inc : List Nat → Option Included)
    (hno : ∀ b e arg, ¬ IncludeLine code b e arg) (fuel : Nat) (out : List Nat) (maps : List CodeMap)
    (h : preprocess path code line inc fuel = some (out, maps)) : out = code ∧ HasOrigins maps out (ownOrigins path code line 0 code.length) := by
  have key : ∀ (inc' : List Nat → Option Included) i out orig, Expands (fun _ => True) (fun _ => True) path code line inc' i out orig →
      i ≤ code.length ∧ out = code.take i ∧ orig = ownOrigins path code line 0 i := by
    intro inc' i out orig h
    induction h with
    | nil => exact ⟨Nat.zero_le _, rfl, rfl⟩
    | char h hc _ ih =>
      obtain ⟨h1, h2, h3⟩ := ih
      rw [List.getElem?_eq_some_iff] at hc
      refine ⟨hc.1, ?_, ?_⟩
      · rw [List.take_add_one, h2, List.getElem?_eq_getElem hc.1, hc.2]; rfl
      · rw [h3]; simp [ownOrigins, List.range_succ]
    | incl h hl ht hi hg ih => exact absurd hl (hno _ _ _)
  -- no include is ever read, so the result does not depend on `inc`
  have hindep : preprocess path code line (fun _ => none) fuel = some (out, maps) := by
    have step : ∀ s : Prep, s.i < code.length → prepStep path code line (fun _ => none) s = prepStep path code line inc s := by
      intro s hlt
      unfold prepStep
      simp only
      split
      · rfl
      split
      · rfl
      split
      · rfl
      split
      · rfl
      split
      · cases hb : backUp code s.i with
        | none => rfl
        | some b =>
          simp only
          cases ha : includeArg ((code.drop s.i).take (toEol code s.i - s.i)) with
          | none => rfl
          | some arg =>
            exfalso
            exact hno _ _ _ (includeLine_of hlt hb ha)
      · rfl
    have loop : ∀ fuel s, prepLoop path code line (fun _ => none) fuel s = prepLoop path code line inc fuel s := by
      intro fuel
      induction fuel with
      | zero => intro s; rfl
      | succ fuel ih =>
        intro s
        simp only [prepLoop]
        by_cases hlt : s.i < code.length
        · rw [if_pos hlt, if_pos hlt, step s hlt]
          cases prepStep path code line inc s with
          | none => rfl
          | some t => exact ih t
        · rw [if_neg hlt, if_neg hlt]
    unfold preprocess at h ⊢
    rw [loop]; exact h
  obtain ⟨g, g1, g2⟩ := C43_exact path code line (fun _ => none) (by intro arg c hc; cases hc) fuel out maps hindep
  obtain ⟨-, k2, k3⟩ := key _ _ _ _ g1
  refine ⟨by rw [k2]; simp, ?_⟩
  rw [k3] at g2; exact g2

theorem backUp_of {code : List Nat} {j : Nat} (hj : j = 0 ∨ code[j - 1]? = some 10) : ∀ n,
    (∀ k, j ≤ k → k < j + n → ∃ c, code[k]? = some c ∧ (c = 32 ∨ c = 9 ∨ c = 13)) → backUp code (j + n) = some j
  | 0, _ => by
    cases j with
    | zero => rfl
    | succ j =>
      rcases hj with hj | hj
      · cases hj
      · simp only [Nat.add_sub_cancel] at hj
        simp [backUp, hj, isWs]
  | n + 1, h => by
    have ih := backUp_of hj n (fun k h1 h2 => h k h1 (by omega))
    obtain ⟨c, h1, h2⟩ := h (j + n) (by omega) (by omega)
    have h3 : isWs c = true := by rcases h2 with rfl | rfl | rfl <;> rfl
    have h4 : c ≠ 10 := by omega
    rw [← Nat.add_assoc]
    simp only [backUp, h1, h3, if_true, if_neg h4, ih]

theorem takeWhile_append_stop {p : Nat → Bool} {t r : List Nat} (h1 : ∀ c ∈ t, p c = true) (h2 : ∀ a, r.head? = some a → p a = false) :
    (t ++ r).takeWhile p = t ∧ (t ++ r).dropWhile p = r := by
  induction t with
  | nil =>
    cases r with
    | nil => exact ⟨rfl, rfl⟩
    | cons a l => have := h2 a rfl; simp [this]
  | cons c t ih =>
    have := ih fun x hx => h1 x (List.mem_cons_of_mem _ hx)
    have hc := h1 c (List.mem_cons_self ..)
    simp [hc, this.1, this.2]

theorem includeArg_of {space arg : List Nat} (h1 : space ≠ []) (h2 : ∀ c ∈ space, pyIsSpace c = true)
    (h3 : ∃ a, arg.head? = some a ∧ pyIsSpace a = false) : includeArg (includeWord ++ (space ++ arg)) = some arg := by
  have hw : ∀ c ∈ includeWord, (!pyIsSpace c) = true := by decide
  obtain ⟨a, ha1, ha2⟩ := h3
  have e1 := takeWhile_append_stop (p := fun c => !pyIsSpace c) (r := space ++ arg) hw (by
    intro x hx
    cases space with
    | nil => exact absurd rfl h1
    | cons y l => simp at hx; subst hx; simp [h2 y (List.mem_cons_self ..)])
  have e2 := takeWhile_append_stop (p := pyIsSpace) (r := arg) h2 (by
    intro x hx; rw [ha1] at hx; cases hx; exact ha2)
  have hne : arg ≠ [] := by rintro rfl; cases ha1
  unfold includeArg
  simp only [e1.1, List.drop_left, e2.2]
  rw [if_pos ⟨trivial, hne⟩]

theorem includeLine_hash {code : List Nat} {j e : Nat} {arg : List Nat} (h : IncludeLine code j e arg) :
    ∃ k, j ≤ k ∧ code[k]? = some 35 ∧ (∀ x, j ≤ x → x < k → ∃ c, code[x]? = some c ∧ (c = 32 ∨ c = 9 ∨ c = 13)) ∧ code[k + 1]? = some 105 ∧
      toEol code k = e ∧ includeArg ((code.drop k).take (toEol code k - k)) = some arg ∧ backUp code k = some j := by
  obtain ⟨h1, blanks, space, h2, h3, h4, h5, h6, h7, h8, h9⟩ := h
  have hdrop : code.drop (j + blanks.length) = includeWord ++ (space ++ arg) ++ code.drop e := by
    rw [← List.drop_drop, h8]
    simp [List.append_assoc]
  have hb : ∀ x, j ≤ x → x < j + blanks.length → ∃ c, code[x]? = some c ∧ (c = 32 ∨ c = 9 ∨ c = 13) := by
    intro x hx1 hx2
    have : code[x]? = blanks[x - j]? := by
      have : x = j + (x - j) := by omega
      rw [this, ← List.getElem?_drop, h8, List.append_assoc, List.append_assoc, List.append_assoc, List.getElem?_append_left (by omega)]
      congr 1; omega
    rw [this, List.getElem?_eq_getElem (by omega)]
    exact ⟨_, rfl, h2 _ (List.getElem_mem _)⟩
  have hlast : ∀ a, (code.drop e).head? = some a → (a != 10) = false := by
    intro a ha
    rw [List.head?_drop] at ha
    rcases h9 with h9 | h9
    · rw [h9] at ha; simp at ha
    · rw [h9] at ha; cases ha; rfl
  have hno : ∀ c ∈ includeWord ++ (space ++ arg), (c != 10) = true := by
    intro c hc
    rcases List.mem_append.1 hc with hc | hc
    · exact (by decide : ∀ c ∈ includeWord, (c != 10) = true) c hc
    · simp; rintro rfl; exact h6 hc
  have htw := takeWhile_append_stop (p := fun c => c != 10) hno hlast
  have heol : toEol code (j + blanks.length) = e := by
    unfold toEol
    rw [hdrop, htw.1, h7]
    simp only [List.length_append]; omega
  refine ⟨j + blanks.length, by omega, ?_, hb, ?_, heol, ?_, backUp_of h1 _ hb⟩
  · have := congrArg (fun l => l[0]?) hdrop
    simpa [includeWord] using this
  · have := congrArg (fun l => l[1]?) hdrop
    simpa [includeWord] using this
  · have : toEol code (j + blanks.length) - (j + blanks.length) = (includeWord ++ (space ++ arg)).length := by
      rw [heol, h7]; simp only [List.length_append]; omega
    rw [this, hdrop, List.take_left]
    exact includeArg_of h3 h4 h5

/-- Code without strings, comments and double brackets. -/
def PlainCode (code : List Nat) : Prop :=
  ∀ i, ¬ (code[i]? = some 45 ∧ code[i + 1]? = some 45) ∧ ¬ (code[i]? = some 91 ∧ code[i + 1]? = some 91) ∧ code[i]? ≠ some 34 ∧ code[i]? ≠ some 39

theorem prepStep_plain {path code : List Nat} {line : Nat} {inc : List Nat → Option Included} (hp : PlainCode code) {s s' : Prep}
    (ha : ∀ j e arg, s.start ≤ j → IncludeLine code j e arg → ∀ k, j ≤ k → k < s.i → code[k]? ≠ some 35)
    (hs : prepStep path code line inc s = some s') :
    ∀ j e arg, s'.start ≤ j → IncludeLine code j e arg → ∀ k, j ≤ k → k < s'.i → code[k]? ≠ some 35 := by
  obtain ⟨p1, p2, p3, p4⟩ := hp s.i
  unfold prepStep at hs
  simp only at hs
  rw [if_neg p1, if_neg p2, if_neg (by simp [p3, p4])] at hs
  -- an include line whose `#` is at `s.i`
  have key : ∀ j e arg, IncludeLine code j e arg → j ≤ s.i → (∀ k, j ≤ k → k < s.i → code[k]? ≠ some 35) → code[s.i]? = some 35 →
      isDirective code[s.i + 1]? = true ∧ backUp code s.i = some j ∧ includeArg ((code.drop s.i).take (toEol code s.i - s.i)) = some arg := by
    intro j e arg hl hj hk h35
    obtain ⟨h, h1, h2, h3, h4, h5, h6, h7⟩ := includeLine_hash hl
    have : h = s.i := by
      rcases Nat.lt_trichotomy h s.i with h8 | h8 | h8
      · exact absurd h2 (hk h h1 h8)
      · exact h8
      · obtain ⟨c, c1, c2⟩ := h3 s.i hj h8
        rw [h35] at c1; cases c1; omega
    subst this
    exact ⟨by rw [h4]; rfl, h7, h6⟩
  have next : ∀ st, (∀ j e arg, st ≤ j → IncludeLine code j e arg → ∀ k, j ≤ k → k < s.i → code[k]? ≠ some 35) →
      (code[s.i]? = some 35 → ∀ j e arg, st ≤ j → IncludeLine code j e arg → j ≤ s.i → (∀ k, j ≤ k → k < s.i → code[k]? ≠ some 35) → False) →
      ∀ j e arg, st ≤ j → IncludeLine code j e arg → ∀ k, j ≤ k → k < s.i + 1 → code[k]? ≠ some 35 := by
    intro st hst hno j e arg h1 h2 k h3 h4 h5
    rcases Nat.lt_or_ge k s.i with h6 | h6
    · exact hst j e arg h1 h2 k h3 h6 h5
    · have : k = s.i := by omega
      subst this
      exact hno h5 j e arg h1 h2 h3 (hst j e arg h1 h2)
  split at hs
  · rename_i hc
    cases hs
    exact next _ ha fun h35 => absurd h35 hc
  split at hs
  · rename_i hdir
    cases hb : backUp code s.i with
    | none =>
      rw [hb] at hs; cases hs
      refine next _ ha fun h35 j e arg h1 h2 h3 h4 => ?_
      rw [(key j e arg h2 h3 h4 h35).2.1] at hb; cases hb
    | some b =>
      rw [hb] at hs
      simp only at hs
      obtain ⟨b1, b2, b3⟩ := backUp_spec hb
      have hfs : (Prep.flush path code line { s with i := b }).start = b := by unfold Prep.flush; split <;> rfl
      generalize Prep.flush path code line { s with i := b } = t at hs hfs
      cases hi : includeArg ((code.drop s.i).take (toEol code s.i - s.i)) with
      | none =>
        rw [hi] at hs; cases hs
        have hws : ∀ j, b ≤ j → ∀ k, j ≤ k → k < s.i → code[k]? ≠ some 35 := by
          intro j h1 k h2 h3 h4
          obtain ⟨c, c1, c2, c3⟩ := b3 k (by omega) h3
          rw [h4] at c1; cases c1; cases c2
        refine next _ (fun j e arg h1 h2 => hws j (by simp only [hfs] at h1; exact h1)) fun h35 j e arg h1 h2 h3 h4 => ?_
        rw [(key j e arg h2 h3 h4 h35).2.2] at hi; cases hi
      | some arg =>
        rw [hi] at hs
        simp only at hs
        cases hc : inc arg with
        | none => rw [hc] at hs; cases hs
        | some c =>
          rw [hc] at hs; cases hs
          intro j e arg h1 _ k h2 h3
          simp only at h1 h3
          omega
  · rename_i hdir
    cases hs
    refine next _ ha fun h35 j e arg h1 h2 h3 h4 => ?_
    exact hdir (key j e arg h2 h3 h4 h35).1

/-- In code without strings, comments and double brackets, every include line is expanded: no character of one is kept. -/
theorem C43_all_expanded (path code : List Nat) (line : Nat) (inc : List Nat → Option Included) (hp : PlainCode code)
    (hinc : ∀ arg c, inc arg = some c → ∃ g, IncOrigins c g) (fuel : Nat) (out : List Nat) (maps : List CodeMap)
    (h : preprocess path code line inc fuel = some (out, maps)) :
    ∃ orig, Expands (fun i => ¬ ∃ e arg, IncludeLine code i e arg) (fun _ => True) path code line inc code.length out orig ∧ HasOrigins maps out orig := by
  unfold preprocess at h
  cases hl : prepLoop path code line inc fuel ⟨0, 0, 0, [], []⟩ with
  | none => rw [hl] at h; cases h
  | some s =>
    rw [hl] at h; cases h
    refine prepLoop_spec hinc (fun s => ∀ j e arg, s.start ≤ j → IncludeLine code j e arg → ∀ k, j ≤ k → k < s.i → code[k]? ≠ some 35)
      (fun s s' ha _ hs => prepStep_plain hp ha hs) ?_ (fun _ _ _ _ _ _ => trivial) ?_ fuel _ s ?_
      ⟨⟨[], Expands.nil, rfl, by simp⟩, rfl, Nat.le_refl _, Nat.zero_le _, Or.inl rfl⟩ hl
    · rintro s ha hlt b hb j h1 h2 ⟨e, arg, hline⟩
      obtain ⟨b1, b2, b3⟩ := backUp_spec hb
      obtain ⟨k, k1, k2, k3, -⟩ := includeLine_hash hline
      have hk : s.i ≤ k := by
        rcases Nat.lt_or_ge k s.i with h3 | h3
        · exact absurd k2 (ha j e arg h1 hline k k1 h3)
        · exact h3
      obtain ⟨c, c1, c2⟩ := k3 (b - 1) (by omega) (by omega)
      rcases b2 with b2 | b2
      · omega
      · rw [b2] at c1; cases c1; omega
    · rintro s ha hlt j h1 h2 ⟨e, arg, hline⟩
      obtain ⟨k, k1, k2, -⟩ := includeLine_hash hline
      have : k < code.length := (List.getElem?_eq_some_iff.1 k2).1
      exact ha j e arg h1 hline k k1 (by omega) k2
    · intro j e arg _ _ k _ hk; exact absurd hk (by simp)

/-- Preprocessing ends whenever every `[[` is closed and no include fails. -/
theorem C43_ends (path code : List Nat) (line : Nat) (inc : List Nat → Option Included)
    (hclosed : ∀ i, code[i]? = some 91 → code[i + 1]? = some 91 → skipLong code i ≠ none) (hinc : ∀ arg, inc arg ≠ none) :
    preprocess path code line inc code.length ≠ none := by
  have hstep : ∀ s : Prep, s.i < code.length → ∃ s', prepStep path code line inc s = some s' ∧ s.i < s'.i := by
    intro s hlt
    unfold prepStep
    simp only
    split
    · refine ⟨_, rfl, ?_⟩
      cases hk : skipLong code (s.i + 2) with
      | none => simp only [Option.getD_none]; unfold toEol; omega
      | some j => have := skipLong_ge hk; simp only [Option.getD_some]; omega
    split
    · rename_i h
      refine ⟨_, rfl, ?_⟩
      cases hk : skipLong code s.i with
      | none => exact absurd hk (hclosed _ h.1 h.2)
      | some j => have := skipLong_ge hk; simp only [Option.getD_some]; omega
    split
    · refine ⟨_, rfl, ?_⟩
      have := strEnd_ge ((code[s.i]?).getD 0) (code.drop (s.i + 1)) (s.i + 1)
      simp only; omega
    split
    · exact ⟨_, rfl, by simp⟩
    rename_i h35
    split
    · cases hb : backUp code s.i with
      | none => exact ⟨_, rfl, by simp⟩
      | some b =>
        simp only
        cases ha : includeArg ((code.drop s.i).take (toEol code s.i - s.i)) with
        | none => exact ⟨_, rfl, by simp⟩
        | some arg =>
          cases hi : inc arg with
          | none => exact absurd hi (hinc arg)
          | some c =>
            refine ⟨_, by simp only [hi]; rfl, ?_⟩
            simp only
            obtain ⟨space, a1, -⟩ := includeArg_spec ha
            have := congrArg List.length a1
            have hl : ((code.drop s.i).take (toEol code s.i - s.i)).length ≤ toEol code s.i - s.i := by simp; omega
            rw [this] at hl
            simp [includeWord] at hl
            omega
    · exact ⟨_, rfl, by simp⟩
  have loop : ∀ fuel (s : Prep), code.length ≤ s.i + fuel → prepLoop path code line inc fuel s ≠ none := by
    intro fuel
    induction fuel with
    | zero =>
      intro s h
      simp only [prepLoop]
      rw [if_neg (by omega)]; simp
    | succ fuel ih =>
      intro s h
      simp only [prepLoop]
      split
      · rename_i hlt
        obtain ⟨s', h1, h2⟩ := hstep s hlt
        rw [h1]
        exact ih s' (by omega)
      · simp
  unfold preprocess
  have := loop code.length ⟨0, 0, 0, [], []⟩ (by simp)
  cases hl : prepLoop path code line inc code.length ⟨0, 0, 0, [], []⟩ with
  | none => exact absurd hl this
  | some s => simp

/-- `[[` that is never closed makes the preprocessor loop for ever. -/
theorem C43_hang_counterexample (path : List Nat) (line : Nat) (inc : List Nat → Option Included) (fuel : Nat) :
    preprocess path [91, 91] line inc fuel = none := by
  have : ∀ fuel, prepLoop path [91, 91] line inc fuel ⟨0, 0, 0, [], []⟩ = none := by
    intro fuel
    induction fuel with
    | zero => rfl
    | succ fuel ih =>
      simp only [prepLoop]
      have : prepStep path [91, 91] line inc ⟨0, 0, 0, [], []⟩ = some ⟨0, 0, 0, [], []⟩ := rfl
      rw [if_pos (by decide), this]
      exact ih
  unfold preprocess
  rw [this]; rfl

/-! ### The source map of a selected tab (C45) -/

/-- For a cart without nested includes, the mapping of a selected tab is exact. -/
theorem C45_map_partial (path src code : List Nat) (line n : Nat) (out : List Nat) (maps : List CodeMap)
    (h : trimCart path code [⟨0, path, src, 0, line⟩] n = some (out, maps)) :
    ∃ s, (code.drop s).take out.length = out ∧ HasOrigins maps out (ownOrigins path src line s out.length) := by
  unfold trimCart at h
  cases ht : trimLoop code n 0 0 with
  | none => rw [ht] at h; cases h
  | some se =>
    obtain ⟨s, e⟩ := se
    rw [ht] at h
    simp [trimMaps] at h
    obtain ⟨rfl, rfl⟩ := h
    refine ⟨s, ?_, hasOrigins_own _ _ _ _ _⟩
    rw [List.length_take, List.length_drop, List.take_eq_take_iff]
    simp

/-- The mappings of a cart whose second tab has an `a` of its own and then a `b` from another file. -/
def nestMaps : List CodeMap := [⟨0, [1], [120, 10, 45, 45, 62, 56, 10, 97], 0, 0⟩, ⟨8, [2], [98], 0, 0⟩]

theorem trimMaps_find (path : List Nat) (start stop i : Nat) (hi : start + i ≤ stop) : ∀ (ms acc : List CodeMap),
    (ms.map (·.idx)).Pairwise (· ≤ ·) →
    (trimMaps path start stop ms acc).reverse.find? (fun m => decide (i ≥ m.idx)) =
      (((ms.reverse.find? fun m => decide (start + i ≥ m.idx)).map fun m =>
        ({ m with idx := m.idx - start, srcIdx := m.srcIdx + (if m.path = path then start else 0) } : CodeMap)).or
        (acc.reverse.find? fun m => decide (i ≥ m.idx)))
  | [], acc, _ => by simp [trimMaps]
  | m :: ms, acc, hs => by
    rw [List.map_cons, List.pairwise_cons] at hs
    rw [trimMaps]
    by_cases h : m.idx > stop
    · rw [if_pos h]
      have hnone : ((m :: ms).reverse.find? fun m => decide (start + i ≥ m.idx)) = none := by
        rw [List.find?_eq_none]
        intro x hx
        rw [List.mem_reverse, List.mem_cons] at hx
        have : m.idx ≤ x.idx := by
          rcases hx with rfl | hx
          · exact Nat.le_refl _
          · exact hs.1 x.idx (List.mem_map_of_mem hx)
        simp; omega
      rw [hnone]; rfl
    · rw [if_neg h]
      simp only
      rw [trimMaps_find path start stop i hi ms _ hs.2, List.reverse_cons, List.find?_append]
      rw [List.reverse_append]
      simp only [List.reverse_cons, List.reverse_nil, List.nil_append, List.singleton_append, List.find?_cons, List.find?_nil]
      cases hf : ms.reverse.find? fun m => decide (start + i ≥ m.idx) with
      | some x => simp
      | none =>
        by_cases hm : start + i ≥ m.idx
        · have : i ≥ m.idx - start := by omega
          simp [hm, this]
        · have h1 : ¬ i ≥ m.idx - start := by omega
          have h2 : ¬ m.idx ≤ start := by omega
          simp [hm, h1, h2]

/-- Even with nested includes, each character of a selected tab is attributed to the file, source text and first line it was
attributed to before the selection (only the position in that file may be wrong, see below). -/
theorem C45_map_file (path code : List Nat) (maps : List CodeMap) (hm : (maps.map (·.idx)).Pairwise (· ≤ ·)) (n : Nat) (out : List Nat)
    (maps' : List CodeMap) (h : trimCart path code maps n = some (out, maps')) :
    ∃ s, (code.drop s).take out.length = out ∧ ∀ i, i < out.length →
      (mapLookup maps' i).map (fun r => (r.1.path, r.1.code, r.1.line)) =
      (mapLookup maps (s + i)).map (fun r => (r.1.path, r.1.code, r.1.line)) := by
  unfold trimCart at h
  cases ht : trimLoop code n 0 0 with
  | none => rw [ht] at h; cases h
  | some se =>
    obtain ⟨s, e⟩ := se
    rw [ht] at h
    simp only [Option.some.injEq, Prod.mk.injEq] at h
    obtain ⟨rfl, rfl⟩ := h
    refine ⟨s, ?_, ?_⟩
    · rw [List.length_take, List.length_drop, List.take_eq_take_iff]
      simp
    · intro i hi
      have hi : s + i ≤ e := by rw [List.length_take] at hi; omega
      unfold mapLookup
      rw [trimMaps_find path s e i hi maps [] hm]
      cases maps.reverse.find? fun m => decide (s + i ≥ m.idx) <;> simp

example : (nestMaps.map (·.idx)).Pairwise (· ≤ ·) ∧ (trimCart [1] [120, 10, 45, 45, 62, 56, 10, 97, 98] nestMaps 1).map Prod.fst = some [97, 98] ∧
    (trimCart [1] [120, 10, 45, 45, 62, 56, 10, 97, 98] nestMaps 1).map (fun r => (mapLookup r.2 1).map (·.1.path)) = some (some [2]) := by decide +kernel

/-- Code `x`, include of `inc`, text `y`, break, `z` in a cart at path `[1]`. -/
def nestSrc : List Nat := [120, 10] ++ (includeWord ++ [32, 105]) ++ [10, 121] ++ tabBreak ++ [122]

def nestInc : List Nat → Option Included := fun _ => some ⟨[2], [97, 98], []⟩

/-- The expanded cart: `x`, newline, `ab`, newline, `y`, break, `z`. -/
def nestOut : List Nat × List CodeMap := (preprocess [1] nestSrc 0 nestInc 100).getD ([], [])

/-- With a nested include, the character `z` of the second tab is mapped past the end of the file, though the mapping before the selection
was right: the include of tab 1 reports wrong positions. -/
theorem C45_map_counterexample : ∃ out maps, trimCart [1] nestOut.1 nestOut.2 1 = some (out, maps) ∧ out = [122] ∧
    (mapLookup nestOut.2 12).map (fun r => r.1.code[r.2]?) = some (some 122) ∧
    (mapLookup maps 0).map (fun r => r.1.code[r.2]?) = some none :=
  ⟨[122], [⟨0, [1], nestSrc, 24, 0⟩], by decide +kernel, rfl, by decide +kernel, by decide +kernel⟩

/-- The include line of `nestSrc`. -/
theorem nestLine : IncludeLine nestSrc 2 12 [105] :=
  ⟨Or.inr rfl, [], [32], by simp, by simp, by simp; decide, ⟨105, rfl, by decide⟩, by decide, rfl, rfl, Or.inr rfl⟩

/-- Its first 14 characters are plain code with an include line, as `C43_all_expanded` asks. -/
example : PlainCode (nestSrc.take 14) ∧ IncludeLine (nestSrc.take 14) 2 12 [105] := by
  refine ⟨fun i => ?_, ⟨Or.inr rfl, [], [32], by simp, by simp, by simp; decide, ⟨105, rfl, by decide⟩, by decide, rfl, rfl, Or.inr rfl⟩⟩
  rcases Nat.lt_or_ge i 14 with h | h
  · exact (by decide +kernel : ∀ i < 14, ¬ ((nestSrc.take 14)[i]? = some 45 ∧ (nestSrc.take 14)[i + 1]? = some 45) ∧
      ¬ ((nestSrc.take 14)[i]? = some 91 ∧ (nestSrc.take 14)[i + 1]? = some 91) ∧ (nestSrc.take 14)[i]? ≠ some 34 ∧ (nestSrc.take 14)[i]? ≠ some 39) i h
  · have : (nestSrc.take 14)[i]? = none := List.getElem?_eq_none (by simp; omega)
    simp [this]

example : nestOut.1 = [120, 10, 97, 98, 10, 121] ++ tabBreak ++ [122] ∧
    mapLookup nestOut.2 3 = some (⟨2, [2], [97, 98], 0, 0⟩, 1) ∧ mapLookup nestOut.2 5 = some (⟨4, [1], nestSrc, 12, 0⟩, 13) := by decide +kernel

example : ∀ arg c, nestInc arg = some c → ∃ g, IncOrigins c g := by
  intro arg c h; cases h; exact ⟨_, by unfold IncOrigins; simp; rfl⟩

end Verif
