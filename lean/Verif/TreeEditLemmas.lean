import Verif.TreeEdit
/-!
Helper lemmas: walking the tree is walking the sequence of its tokens.
-/
namespace Verif.TreeEdit

/-- The tokens on one side of a place, the nearest first. -/
def side (fwd : Bool) (ctx : List Frame) : List Tok :=
  if fwd then ctx.flatMap fun f => toksL f.2 else ctx.flatMap fun f => f.1.flatMap fun t => (toks t).reverse

/-- The tokens from the edge of a place on, in one direction. -/
def ahead (fwd : Bool) (m : Loc) : List Tok := (if fwd then toks m.1 else (toks m.1).reverse) ++ side fwd m.2

theorem toksL_append (a b : List Tree) : toksL (a ++ b) = toksL a ++ toksL b := by
  induction a with
  | nil => simp [toksL]
  | cons t a ih => simp [toksL, ih]

theorem toksL_reverse (l : List Tree) : (toksL l.reverse).reverse = l.flatMap fun t => (toks t).reverse := by
  induction l with
  | nil => simp [toksL]
  | cons t l ih => simp [toksL_append, toksL, ih]

theorem toksL_reverse' (l : List Tree) : toksL l.reverse = (l.flatMap fun t => (toks t).reverse).reverse := by
  rw [← toksL_reverse, List.reverse_reverse]

theorem sizes_append (a b : List Tree) : sizes (a ++ b) = sizes a + sizes b := by
  induction a with
  | nil => simp [sizes]
  | cons t a ih => simp [sizes, ih]; omega

theorem sizes_reverse (l : List Tree) : sizes l.reverse = sizes l := by
  induction l with
  | nil => rfl
  | cons t l ih => simp [sizes_append, sizes, ih]; omega

theorem adjacent_none {fwd : Bool} {ctx : List Frame} : ∀ {m : Tree}, adjacent fwd m ctx = none → side fwd ctx = [] := by
  induction ctx with
  | nil => intro m _; cases fwd <;> rfl
  | cons f up ih =>
    intro m h
    obtain ⟨l, r⟩ := f
    cases fwd with
    | true =>
      cases r with
      | nil => have := ih (by simpa [adjacent] using h); simpa [side, toksL] using this
      | cons x r => simp [adjacent] at h
    | false =>
      cases l with
      | nil => have := ih (by simpa [adjacent] using h); simpa [side] using this
      | cons x r => simp [adjacent] at h

theorem adjacent_some {fwd : Bool} {ctx : List Frame} {x : Loc} : ∀ {m : Tree}, adjacent fwd m ctx = some x →
    ahead fwd x = side fwd ctx ∧ size x.1 + sideSize fwd x.2 ≤ sideSize fwd ctx := by
  induction ctx with
  | nil => intro m h; simp [adjacent] at h
  | cons f up ih =>
    intro m h
    obtain ⟨l, r⟩ := f
    cases fwd with
    | true =>
      cases r with
      | nil =>
        have := ih (by simpa [adjacent] using h)
        simpa [side, toksL, sideSize, sizes] using this
      | cons y r =>
        simp only [adjacent, if_true, Option.some.injEq] at h
        subst h
        simp [ahead, side, toksL, sideSize, sizes]
        omega
    | false =>
      cases l with
      | nil =>
        have := ih (by simpa [adjacent] using h)
        simpa [side, sideSize, sizes] using this
      | cons y l =>
        simp only [adjacent, Bool.false_eq_true, if_false, Option.some.injEq] at h
        subst h
        simp [ahead, side, sideSize, sizes]
        omega

theorem descend_none {fwd : Bool} {cs : List Tree} {ctx : List Frame} (h : descend fwd cs ctx = none) : cs = [] := by
  cases fwd with
  | true => cases cs with
    | nil => rfl
    | cons => simp [descend] at h
  | false =>
    cases hr : cs.reverse with
    | nil => simpa using hr
    | cons => simp [descend, hr] at h

theorem descend_some {fwd : Bool} {cs : List Tree} {ctx : List Frame} {x : Loc} (h : descend fwd cs ctx = some x) :
    ahead fwd x = ahead fwd (.node cs, ctx) ∧ size x.1 + sideSize fwd x.2 < size (.node cs) + sideSize fwd ctx := by
  cases fwd with
  | true => cases cs with
    | nil => simp [descend] at h
    | cons c cs =>
      simp only [descend, if_true, Option.some.injEq] at h
      subst h
      simp [ahead, side, toks, toksL, size, sideSize, sizes]
      omega
  | false =>
    cases hr : cs.reverse with
    | nil => simp [descend, hr] at h
    | cons c ds =>
      simp only [descend, hr, Bool.false_eq_true, if_false, Option.some.injEq] at h
      subst h
      have e : cs = (c :: ds).reverse := by rw [← hr, List.reverse_reverse]
      subst e
      have h1 := toksL_reverse (c :: ds)
      have h2 := sizes_reverse (c :: ds)
      simp only [ahead, side, toks, size, sideSize, h1, h2, Bool.false_eq_true, if_false, List.flatMap_cons, List.map_cons, List.sum_cons, sizes]
      exact ⟨by simp, by omega⟩

/-- The loop finds the nearest token. -/
theorem findFuel_eq {fwd : Bool} {fuel : Nat} : ∀ {m : Loc}, size m.1 + sideSize fwd m.2 ≤ fuel → findFuel fwd fuel m = (ahead fwd m).head? := by
  induction fuel with
  | zero =>
    intro m h
    obtain ⟨m, ctx⟩ := m
    cases m <;> simp [size] at h
  | succ fuel ih =>
    intro m h
    obtain ⟨m, ctx⟩ := m
    cases m with
    | tok t => cases fwd <;> simp [findFuel, ahead, toks]
    | node cs =>
      rw [findFuel]
      cases hd : descend fwd cs ctx with
      | some x =>
        obtain ⟨h1, h2⟩ := descend_some hd
        simp only
        rw [ih (by simp only at h; omega), h1]
      | none =>
        have hc := descend_none hd
        subst hc
        have ha : ahead fwd (.node [], ctx) = side fwd ctx := by cases fwd <;> simp [ahead, toks, toksL]
        rw [ha]
        simp only
        cases hj : adjacent fwd (.node []) ctx with
        | some x =>
          obtain ⟨h1, h2⟩ := adjacent_some hj
          simp only
          rw [ih (by simp only [size, sizes] at h; omega), h1]
        | none => rw [adjacent_none hj]; rfl

theorem edge_eq (fwd : Bool) (m : Loc) : edge fwd m = (ahead fwd m).head? := findFuel_eq (Nat.le_refl _)

theorem neighbour_eq (fwd : Bool) (m : Loc) : neighbour fwd m = (side fwd m.2).head? := by
  unfold neighbour
  cases h : adjacent fwd m.1 m.2 with
  | none => rw [adjacent_none h]; rfl
  | some x => rw [Option.bind_some, edge_eq, (adjacent_some h).1]

theorem toks_plug (ctx : List Frame) : ∀ m, toks (plug m ctx) = (side false ctx).reverse ++ toks m ++ side true ctx := by
  induction ctx with
  | nil => intro m; simp [plug, side]
  | cons f up ih =>
    intro m
    obtain ⟨l, r⟩ := f
    rw [plug, ih, toks, toksL_append, toksL, toksL_reverse']
    simp [side]

/-- Where the comments go: what the tokens are on both sides of the place, and the token found. -/
theorem findOrCreate_eq (new : Nat) (cs : List Tree) (ctx : List Frame) (i : Nat) (last : Bool) :
    ∃ j, (j = if last ∨ cs.length ≤ i then cs.length else i) ∧
      let U := (side false ctx).reverse ++ toksL (cs.take j)
      let V := toksL (cs.drop j) ++ side true ctx
      (∃ t V', V = t :: V' ∧ findOrCreate new cs ctx i last = (.node cs, t.id, true)) ∨
      (V = [] ∧ ∃ U' t, U = U' ++ [t] ∧ findOrCreate new cs ctx i last = (.node cs, t.id, false)) ∨
      (V = [] ∧ U = [] ∧ ∃ ds, findOrCreate new cs ctx i last = (.node ds, new, false) ∧ toksL ds = [⟨new, []⟩]) := by
  refine ⟨_, rfl, ?_⟩
  have split_last : ∀ {U : List Tok} {t : Tok}, U.reverse.head? = some t → ∃ U', U = U' ++ [t] := by
    intro U t h
    rw [List.head?_reverse] at h
    obtain ⟨l, rfl⟩ := List.getLast?_eq_some_iff.mp h
    exact ⟨l, rfl⟩
  by_cases hp : last = true ∨ cs.length ≤ i
  · rw [if_pos hp]
    have hc : (if last = true then none else cs[i]?) = none := by
      cases hp with
      | inl h => simp [h]
      | inr h => simp [List.getElem?_eq_none h]
    simp only [List.take_length, List.drop_length, toksL, List.nil_append]
    unfold findOrCreate
    rw [hc]
    simp only [neighbour_eq, edge_eq]
    cases hV : side true ctx with
    | cons t V' => left; exact ⟨t, V', rfl, by simp⟩
    | nil =>
      right
      have hah : ahead false (.node cs, ctx) = ((side false ctx).reverse ++ toksL cs).reverse := by simp [ahead, toks]
      rw [hah]
      cases hU : ((side false ctx).reverse ++ toksL cs).reverse.head? with
      | some t =>
        obtain ⟨U', e⟩ := split_last hU
        left; exact ⟨rfl, U', t, e, by simp⟩
      | none =>
        right
        have e : (side false ctx).reverse ++ toksL cs = [] := by simpa [and_comm] using hU
        have e1 : side false ctx = [] := by simpa using (List.append_eq_nil_iff.mp e).1
        have e2 : toksL cs = [] := (List.append_eq_nil_iff.mp e).2
        refine ⟨rfl, e, cs ++ [.tok ⟨new, []⟩], ?_, ?_⟩
        · simp [e1, appendDummy]
        · simp [toksL_append, e2, toksL, toks]
  · rw [if_neg hp]
    have hl : ¬ last = true := fun h => hp (.inl h)
    have hi : i < cs.length := by omega
    have hc : (if last = true then none else cs[i]?) = some cs[i] := by rw [if_neg hl]; exact List.getElem?_eq_getElem hi
    have hdrop : cs.drop i = cs[i] :: cs.drop (i + 1) := List.drop_eq_getElem_cons hi
    unfold findOrCreate
    rw [hc]
    simp only [neighbour_eq, edge_eq]
    have hah : ahead true (cs[i], ((cs.take i).reverse, cs.drop (i + 1)) :: ctx) = toksL (cs.drop i) ++ side true ctx := by
      rw [hdrop]; simp [ahead, side, toksL]
    have hb : side false (((cs.take i).reverse, cs.drop (i + 1)) :: ctx) = ((side false ctx).reverse ++ toksL (cs.take i)).reverse := by
      have := toksL_reverse (cs.take i).reverse
      rw [List.reverse_reverse] at this
      simp [side, ← this]
    rw [hah, hb]
    cases hV : toksL (cs.drop i) ++ side true ctx with
    | cons t V' => left; exact ⟨t, V', rfl, by simp⟩
    | nil =>
      right
      have hn : side true (((cs.take i).reverse, cs.drop (i + 1)) :: ctx) = [] := by
        rw [hdrop] at hV
        simp only [toksL, List.append_assoc, List.append_eq_nil_iff] at hV
        simp only [side, if_true, List.flatMap_cons] at hV ⊢
        rw [hV.2.1, hV.2.2]; rfl
      rw [hn]
      cases hU : ((side false ctx).reverse ++ toksL (cs.take i)).reverse.head? with
      | some t =>
        obtain ⟨U', e⟩ := split_last hU
        left; exact ⟨rfl, U', t, e, by simp⟩
      | none =>
        right
        have e : (side false ctx).reverse ++ toksL (cs.take i) = [] := by simpa [and_comm] using hU
        have e2 : toksL (cs.take i) = [] := (List.append_eq_nil_iff.mp e).2
        refine ⟨rfl, e, cs.take i ++ appendDummy new cs[i] :: cs.drop (i + 1), by simp, ?_⟩
        rw [hdrop] at hV
        simp only [toksL, List.append_assoc, List.append_eq_nil_iff] at hV
        rw [toksL_append, toksL, e2, hV.2.1]
        cases hx : cs[i] with
        | tok t => rw [hx] at hV; simp [toks] at hV
        | node ds =>
          rw [hx] at hV
          simp only [toks] at hV
          simp [appendDummy, toks, toksL_append, toksL, hV.1]

mutual
theorem toks_map (f : Tok → Tok) : ∀ t, toks (mapToks f t) = (toks t).map f
  | .tok t => by simp [mapToks, toks]
  | .node cs => by simp [mapToks, toks, toksL_map f cs]
theorem toksL_map (f : Tok → Tok) : ∀ ts, toksL (mapToksL f ts) = (toksL ts).map f
  | [] => by simp [mapToksL, toksL]
  | t :: ts => by simp [mapToksL, toksL, toks_map f t, toksL_map f ts]
end

theorem flatMap_map_toks (f : Tok → Tok) (l : List Tree) :
    (mapToksL f l).flatMap (fun t => (toks t).reverse) = (l.flatMap fun t => (toks t).reverse).map f := by
  induction l with
  | nil => simp [mapToksL]
  | cons t l ih => simp [mapToksL, ih, toks_map]

theorem side_map (fwd : Bool) (f : Tok → Tok) (ctx : List Frame) : side fwd (mapCtx f ctx) = (side fwd ctx).map f := by
  induction ctx with
  | nil => cases fwd <;> simp [side, mapCtx]
  | cons x ctx ih =>
    cases fwd with
    | true => simp only [side, mapCtx, if_true, List.map_cons, List.flatMap_cons, List.map_append, toksL_map] at ih ⊢; rw [ih]
    | false =>
      simp only [side, mapCtx, Bool.false_eq_true, if_false, List.map_cons, List.flatMap_cons, List.map_append, flatMap_map_toks] at ih ⊢
      rw [ih]

/-- All tokens of the tree that the place is in. -/
def all (m : Loc) : List Tok := toks (plug m.1 m.2)

theorem all_eq (m : Loc) : all m = (side false m.2).reverse ++ toks m.1 ++ side true m.2 := toks_plug m.2 m.1

theorem all_map (f : Tok → Tok) (m : Tree) (ctx : List Frame) : all (mapToks f m, mapCtx f ctx) = (all (m, ctx)).map f := by
  simp only [all_eq, side_map, toks_map, List.map_append, List.map_reverse]

theorem addTok_id (id : Nat) (new : List Comment) (first : Bool) (t : Tok) : (addTok id new first t).id = t.id := by
  unfold addTok; split <;> rfl

theorem map_addTok_other {id : Nat} {new : List Comment} {first : Bool} {l : List Tok} (h : id ∉ l.map (·.id)) : l.map (addTok id new first) = l := by
  induction l with
  | nil => rfl
  | cons t l ih =>
    simp only [List.map_cons, List.mem_cons, not_or] at h
    rw [List.map_cons, ih h.2, addTok, if_neg (fun e => h.1 e.symm)]

/-- Where the comments end up. -/
theorem attach_eq (new : Nat) (cs : List Tree) (ctx : List Frame) (i : Nat) (last : Bool) (lost : List Comment)
    (hn : ((all (.node cs, ctx)).map (·.id)).Nodup) :
    ∃ j, (j = if last ∨ cs.length ≤ i then cs.length else i) ∧
      (all (attach new cs ctx i last lost)).flatMap (·.comments) =
        ((side false ctx).reverse ++ toksL (cs.take j)).flatMap (·.comments) ++ lost ++ (toksL (cs.drop j) ++ side true ctx).flatMap (·.comments) ∧
      (all (attach new cs ctx i last lost)).map (·.id) = (if all (.node cs, ctx) = [] then [new] else (all (.node cs, ctx)).map (·.id)) ∧
      ∃ ds, (attach new cs ctx i last lost).1 = .node ds := by
  obtain ⟨j, hj, h⟩ := findOrCreate_eq new cs ctx i last
  refine ⟨j, hj, ?_⟩
  simp only at h
  have hall : all (.node cs, ctx) = ((side false ctx).reverse ++ toksL (cs.take j)) ++ (toksL (cs.drop j) ++ side true ctx) := by
    rw [all_eq]
    have := toksL_append (cs.take j) (cs.drop j)
    rw [List.take_append_drop] at this
    simp only [toks, this, List.append_assoc]
  generalize (side false ctx).reverse ++ toksL (cs.take j) = U at h hall
  generalize toksL (cs.drop j) ++ side true ctx = V at h hall
  have hnode : ∀ f ds, ∃ es, mapToks f (.node ds) = .node es := fun f ds => ⟨_, by rw [mapToks]⟩
  rw [hall] at hn
  unfold attach
  rcases h with ⟨t, V', rfl, e⟩ | ⟨rfl, U', t, rfl, e⟩ | ⟨rfl, rfl, ds, e, hds⟩
  · rw [e]
    simp only
    rw [all_map, hall, if_neg (by simp)]
    rw [List.map_append, List.map_cons, List.nodup_append] at hn
    have h1 : t.id ∉ U.map (·.id) := fun hm => hn.2.2 _ hm _ (by simp) rfl
    have h2 : t.id ∉ V'.map (·.id) := (List.nodup_cons.mp hn.2.1).1
    refine ⟨?_, ?_, hnode _ _⟩
    · rw [List.map_append, List.map_cons, map_addTok_other h1, map_addTok_other h2]
      simp [addTok]
    · rw [List.map_map]; congr 1; funext x; exact addTok_id _ _ _ x
  · rw [e]
    simp only
    rw [all_map, hall, if_neg (by simp)]
    rw [List.append_nil, List.map_append, List.nodup_append] at hn
    have h1 : t.id ∉ U'.map (·.id) := fun hm => hn.2.2 _ hm _ (by simp) rfl
    refine ⟨?_, ?_, hnode _ _⟩
    · rw [List.append_nil, List.map_append, map_addTok_other h1]
      simp [addTok]
    · rw [List.map_map]; congr 1; funext x; exact addTok_id _ _ _ x
  · rw [e]
    simp only
    rw [all_map, hall]
    have hs : side false ctx = [] ∧ side true ctx = [] := by
      rw [all_eq] at hall
      simp only [List.append_nil, List.append_eq_nil_iff, List.reverse_eq_nil_iff] at hall
      exact ⟨hall.1.1, hall.2⟩
    have : all (.node ds, ctx) = [⟨new, []⟩] := by rw [all_eq]; simp [hs.1, hs.2, toks, hds]
    rw [this]
    refine ⟨by simp [addTok], by simp [addTok], hnode _ _⟩

end Verif.TreeEdit
