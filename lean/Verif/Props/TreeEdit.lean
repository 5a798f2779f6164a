import Verif.TreeEditLemmas
import Verif.Spec.TreeEdit
/-!
C93: walking and editing the syntax tree.
-/
namespace Verif.TreeEdit
open TreeSpec

theorem before_eq (ctx : List Frame) : (side false ctx).reverse = before ctx := by
  induction ctx with
  | nil => simp [side, before]
  | cons f up ih =>
    obtain ⟨l, r⟩ := f
    rw [before, ← ih, toksL_reverse']
    simp [side]

theorem after_eq (ctx : List Frame) : side true ctx = after ctx := by
  induction ctx with
  | nil => simp [side, after]
  | cons f up ih =>
    obtain ⟨l, r⟩ := f
    rw [after, ← ih]
    simp [side]

/-- **C93.** The tokens of the whole tree are those before a place, those in it, and those after it. -/
theorem C93_sequence (m : Tree) (ctx : List Frame) : toks (plug m ctx) = before ctx ++ toks m ++ after ctx := by
  rw [toks_plug, before_eq, after_eq]

/-- **C93.** From any token or node, also one without tokens, `next_token` and `prev_token` are the nearest tokens after and before it in the code, and
`first_token` and `last_token` are its own first and last ones, or the nearest if it has none. -/
theorem C93_walk (m : Tree) (ctx : List Frame) :
    neighbour true (m, ctx) = (after ctx).head? ∧ neighbour false (m, ctx) = (before ctx).getLast? ∧
      edge true (m, ctx) = (toks m ++ after ctx).head? ∧ edge false (m, ctx) = (before ctx ++ toks m).getLast? := by
  have hb : side false ctx = (before ctx).reverse := by rw [← before_eq, List.reverse_reverse]
  refine ⟨?_, ?_, ?_, ?_⟩
  · rw [neighbour_eq, after_eq]
  · rw [neighbour_eq]; simp only; rw [hb, List.head?_reverse]
  · rw [edge_eq]; simp [ahead, after_eq]
  · rw [edge_eq, ← List.head?_reverse]; simp [ahead, hb]

theorem all_node (cs : List Tree) (ctx : List Frame) : all (.node cs, ctx) = before ctx ++ toksL cs ++ after ctx := by
  rw [all, C93_sequence, toks]

theorem toksL_eraseIdx (cs : List Tree) (i : Nat) : toksL (cs.eraseIdx i) = toksL (cs.take i) ++ toksL (cs.drop (i + 1)) := by
  rw [List.eraseIdx_eq_take_drop_succ, toksL_append]

theorem toksL_split {cs : List Tree} {i : Nat} {c : Tree} (h : cs[i]? = some c) : toksL cs = toksL (cs.take i) ++ toks c ++ toksL (cs.drop (i + 1)) := by
  have hi := (List.getElem?_eq_some_iff.mp h).1
  have hc := (List.getElem?_eq_some_iff.mp h).2
  have : cs = cs.take i ++ c :: cs.drop (i + 1) := by rw [← hc, ← List.drop_eq_getElem_cons hi, List.take_append_drop]
  rw (occs := [1]) [this]
  rw [toksL_append, toksL, List.append_assoc]

/-- **C93.** Removing a child removes its tokens and no others, and keeps all comments in their order, but for those of the child that were used up as hints.
Only if no token is left at all, one without text is added to hold the comments. -/
theorem C93_remove {new i : Nat} {cs : List Tree} {ctx : List Frame} {c : Tree} (hc : cs[i]? = some c) (hd : Distinct (toks (plug (.node cs) ctx))) :
    let r := removeChild new cs ctx i
    notes (toks (plug r.1 r.2)) =
      notes (before ctx ++ toksL (cs.take i)) ++ (comments c).filter (!·.auto) ++ notes (toksL (cs.drop (i + 1)) ++ after ctx) ∧
    ((toks (plug r.1 r.2)).map (·.id) = (before ctx ++ toksL (cs.take i) ++ (toksL (cs.drop (i + 1)) ++ after ctx)).map (·.id) ∨
      before ctx ++ toksL (cs.take i) ++ (toksL (cs.drop (i + 1)) ++ after ctx) = [] ∧ (toks (plug r.1 r.2)).map (·.id) = [new]) := by
  intro r
  have hi := (List.getElem?_eq_some_iff.mp hc).1
  have hall : all (.node (cs.eraseIdx i), ctx) = before ctx ++ toksL (cs.take i) ++ (toksL (cs.drop (i + 1)) ++ after ctx) := by
    rw [all_node, toksL_eraseIdx]; simp
  have hlen : (cs.eraseIdx i).length = cs.length - 1 := List.length_eraseIdx_of_lt hi
  have hn : ((all (.node (cs.eraseIdx i), ctx)).map (·.id)).Nodup := by
    rw [hall]
    unfold Distinct at hd
    rw [C93_sequence, toks, toksL_split hc] at hd
    refine List.Nodup.sublist ?_ hd
    refine List.Sublist.map _ ?_
    simp only [List.append_assoc]
    exact List.Sublist.append_left (List.Sublist.append_left (List.sublist_append_right _ _) _) _
  have hr : r = removeChild new cs ctx i := rfl
  unfold removeChild at hr
  simp only [hc, Option.map_some, Option.getD_some] at hr
  by_cases hl : (comments c).filter (!·.auto) = []
  · rw [if_pos hl] at hr
    rw [hr, hl]
    have e : toks (plug (.node (cs.eraseIdx i)) ctx) = all (.node (cs.eraseIdx i), ctx) := rfl
    simp only
    rw [e, hall]
    exact ⟨by simp [notes], .inl rfl⟩
  · rw [if_neg hl] at hr
    obtain ⟨j, hj, h1, h2, _⟩ := attach_eq new (cs.eraseIdx i) ctx i false ((comments c).filter (!·.auto)) hn
    have hji : j = i := by
      rw [hj, hlen]
      split
      · rename_i h; simp at h; omega
      · rfl
    have e : toks (plug r.1 r.2) = all (attach new (cs.eraseIdx i) ctx i false ((comments c).filter (!·.auto))) := by rw [hr]; rfl
    rw [e, h2]
    refine ⟨?_, ?_⟩
    · unfold notes
      rw [h1, hji, before_eq, after_eq]
      have t1 : (cs.eraseIdx i).take i = cs.take i := by
        rw [List.eraseIdx_eq_take_drop_succ, List.take_append_of_le_length (by simp; omega), List.take_take, Nat.min_self]
      have t2 : (cs.eraseIdx i).drop i = cs.drop (i + 1) := by
        rw [List.eraseIdx_eq_take_drop_succ, List.drop_append, List.drop_eq_nil_of_le (by simp; omega)]
        have : i - (cs.take i).length = 0 := by simp; omega
        rw [this]
        rfl
      rw [t1, t2]
    · rw [hall]
      by_cases he : before ctx ++ toksL (cs.take i) ++ (toksL (cs.drop (i + 1)) ++ after ctx) = []
      · rw [if_pos he]; exact .inr ⟨he, rfl⟩
      · rw [if_neg he]; exact .inl rfl

theorem kids_eq {t : Tree} {ds : List Tree} (h : t = .node ds) : t = .node (kids t) := by rw [h]; rfl

/-- What replacing does with the comments: those of the old subtree that are not in the new one are added, first those from before the end of the new ones. -/
theorem replace_notes {new new' : Nat} {old : Tree} {ctx : List Frame} {target : List Tree} (hd : Distinct (toks (plug (.node target) ctx))) :
    let r := replaceWith new new' old ctx target
    let olds := (comments old).filter (!·.auto)
    let news := comments (.node target)
    ∃ U V, notes (toks (plug r.1 r.2)) = U ++ (olds.filter fun c => !isPre news c && !news.contains c) ++ V ∧
      U ++ V = notes (before ctx) ++ (olds.filter fun c => isPre news c && !news.contains c) ++ notes (toksL target ++ after ctx) ∧
      ((toks (plug r.1 r.2)).map (·.id) = (toks (plug (.node target) ctx)).map (·.id) ∨
        toks (plug (.node target) ctx) = [] ∧ (toks (plug r.1 r.2)).map (·.id) = [new]) := by
  intro r olds news
  have hr : r = replaceWith new new' old ctx target := rfl
  unfold replaceWith at hr
  simp only at hr
  by_cases ho : olds = []
  · rw [if_pos ho] at hr
    refine ⟨notes (before ctx), notes (toksL target ++ after ctx), ?_, ?_, .inl (by rw [hr])⟩
    · rw [hr, ho]
      simp only
      rw [C93_sequence, toks]
      simp [notes]
    · rw [ho]; simp
  · rw [if_neg ho] at hr
    obtain ⟨j, hj, h1, h2, ds, hds⟩ := attach_eq new target ctx 0 false (olds.filter fun c => isPre news c && !news.contains c) hd
    generalize hm : attach new target ctx 0 false (olds.filter fun c => isPre news c && !news.contains c) = m at h1 h2 hds
    have hj0 : j = 0 := by rw [hj]; split <;> simp_all
    have hd2 : ((all (.node (kids m.1), m.2)).map (·.id)).Nodup := by
      rw [← kids_eq hds, h2]
      split
      · simp
      · exact hd
    obtain ⟨j', hj', h1', h2', _⟩ := attach_eq new' (kids m.1) m.2 0 true (olds.filter fun c => !isPre news c && !news.contains c) hd2
    have e : toks (plug r.1 r.2) = all (attach new' (kids m.1) m.2 0 true (olds.filter fun c => !isPre news c && !news.contains c)) := by
      rw [hr, ← hm]; rfl
    have hids : (all (.node (kids m.1), m.2)).map (·.id) = (all m).map (·.id) := by rw [← kids_eq hds]
    refine ⟨_, _, by rw [e]; exact h1', ?_, ?_⟩
    rotate_left
    · rw [e, h2']
      by_cases he : all (.node target, ctx) = []
      · rw [if_pos he] at h2
        rw [if_neg (by intro h; rw [h, h2] at hids; simp at hids), hids]
        exact .inr ⟨he, h2⟩
      · rw [if_neg he] at h2
        rw [if_neg (by intro h; rw [h, h2] at hids; simp at hids; exact he hids), hids]
        exact .inl h2
    rw [← List.flatMap_append]
    have hs := all_eq (.node (kids m.1), m.2)
    have ha := toksL_append ((kids m.1).take j') ((kids m.1).drop j')
    rw [List.take_append_drop] at ha
    simp only [toks, ha] at hs
    have : all (.node (kids m.1), m.2) = all m := by rw [← kids_eq hds]
    rw [this] at hs
    rw [show ∀ a b c d : List Tok, a ++ b ++ (c ++ d) = a ++ (b ++ c) ++ d by intros; simp, ← hs, h1, hj0, before_eq, after_eq]
    simp [notes, toksL]

/-- **C93.** Replacing a node by another keeps the tokens around it, and keeps all comments around it, all of the new node, and all of the old one but for
used hints; none of them twice. -/
theorem C93_replace {new new' : Nat} {old : Tree} {ctx : List Frame} {target : List Tree} (hd : Distinct (toks (plug (.node target) ctx))) :
    let r := replaceWith new new' old ctx target
    (notes (toks (plug r.1 r.2))).Perm (notes (toks (plug (.node target) ctx)) ++
      ((comments old).filter (!·.auto)).filter fun c => !(comments (.node target)).contains c) ∧
    ((toks (plug r.1 r.2)).map (·.id) = (toks (plug (.node target) ctx)).map (·.id) ∨
      toks (plug (.node target) ctx) = [] ∧ (toks (plug r.1 r.2)).map (·.id) = [new]) := by
  intro r
  obtain ⟨U, V, h1, h2, h3⟩ := replace_notes (new := new) (new' := new') (old := old) hd
  refine ⟨?_, h3⟩
  have hr : r = replaceWith new new' old ctx target := rfl
  rw [hr, h1, C93_sequence]
  generalize (comments old).filter (!·.auto) = olds at h1 h2 ⊢
  generalize comments (.node target) = news at h1 h2 ⊢
  have hsplit : ((olds.filter fun c => isPre news c && !news.contains c) ++ olds.filter fun c => !isPre news c && !news.contains c).Perm
      (olds.filter fun c => !news.contains c) := by
    have := List.filter_append_perm (fun c => isPre news c) (olds.filter fun c => !news.contains c)
    rw [List.filter_filter, List.filter_filter] at this
    exact this
  generalize (olds.filter fun c => isPre news c && !news.contains c) = P at *
  generalize (olds.filter fun c => !isPre news c && !news.contains c) = Q at *
  have hcomm : (U ++ Q ++ V).Perm (U ++ V ++ Q) := by
    rw [List.append_assoc, List.append_assoc]; exact List.Perm.append_left _ List.perm_append_comm
  refine List.Perm.trans hcomm ?_
  rw [h2]
  refine List.Perm.trans ?_ (List.Perm.append_left _ hsplit)
  simp only [notes, toks, List.flatMap_append, List.append_assoc]
  refine List.Perm.append_left _ ?_
  have := (List.perm_append_comm (l₁ := P) (l₂ := (toksL target).flatMap (·.comments) ++ (after ctx).flatMap (·.comments))).append_right Q
  simpa using this

/-- **C93.** Erasing a node removes its tokens and keeps all comments in their order, but for its used hints. -/
theorem C93_erase {new new' : Nat} {old : Tree} {ctx : List Frame} (hd : Distinct (before ctx ++ after ctx)) :
    let r := erase new new' old ctx
    notes (toks (plug r.1 r.2)) = notes (before ctx) ++ (comments old).filter (!·.auto) ++ notes (after ctx) ∧
    ((toks (plug r.1 r.2)).map (·.id) = (before ctx ++ after ctx).map (·.id) ∨
      before ctx ++ after ctx = [] ∧ (toks (plug r.1 r.2)).map (·.id) = [new]) := by
  intro r
  have hd' : Distinct (toks (plug (.node []) ctx)) := by rw [C93_sequence]; simpa [toks, toksL] using hd
  obtain ⟨U, V, h1, h2, h3⟩ := replace_notes (new := new) (new' := new') (old := old) hd'
  have hnews : comments (.node []) = [] := rfl
  rw [hnews] at h1 h2
  have hpre : ∀ c, isPre [] c = true := fun _ => rfl
  have hf : ∀ l : List Comment, l.filter (fun _ => false) = [] := fun l => by simp
  have ht : ∀ l : List Comment, l.filter (fun _ => true) = l := fun l => by simp
  simp only [hpre, Bool.not_true, Bool.false_and, hf, List.append_nil, Bool.true_and, List.contains_nil, Bool.not_false, ht,
    toksL, List.nil_append] at h1 h2
  have hr : r = replaceWith new new' old ctx [] := rfl
  refine ⟨by rw [hr, h1, h2], ?_⟩
  rw [show toks (plug (.node []) ctx) = before ctx ++ after ctx by rw [C93_sequence]; simp [toks, toksL]] at h3
  exact h3

/-- **C93.** Removing the last child by the index -1 keeps the comments too, but puts those of the child before the child before it. -/
theorem C93_last {new : Nat} {cs : List Tree} {ctx : List Frame} {b c : Tree} (hd : Distinct (toks (plug (.node (cs ++ [b, c])) ctx)))
    (hl : (comments c).filter (!·.auto) ≠ []) :
    let r := removeLast new (cs ++ [b, c]) ctx
    notes (toks (plug r.1 r.2)) = notes (before ctx ++ toksL cs) ++ (comments c).filter (!·.auto) ++ notes (toks b ++ after ctx) := by
  intro r
  have hr : r = removeLast new (cs ++ [b, c]) ctx := rfl
  have e1 : (cs ++ [b, c]).dropLast = cs ++ [b] := by
    rw [show cs ++ [b, c] = (cs ++ [b]) ++ [c] by simp, List.dropLast_concat]
  have e2 : (cs ++ [b, c]).getLast? = some c := by simp
  unfold removeLast at hr
  simp only [e1, e2, Option.map_some, Option.getD_some] at hr
  rw [if_neg hl] at hr
  have hn : ((all (.node (cs ++ [b]), ctx)).map (·.id)).Nodup := by
    unfold Distinct at hd
    rw [C93_sequence] at hd
    rw [all_node]
    refine List.Nodup.sublist (List.Sublist.map _ ?_) hd
    simp only [toks, toksL_append, toksL, List.append_nil, List.append_assoc]
    exact List.Sublist.append_left (List.Sublist.append_left (List.Sublist.append_left (List.sublist_append_right _ _) _) _) _
  obtain ⟨j, hj, h1, _⟩ := attach_eq new (cs ++ [b]) ctx ((cs ++ [b]).length - 1) false ((comments c).filter (!·.auto)) hn
  have hjl : j = cs.length := by rw [hj]; simp
  have e : toks (plug r.1 r.2) = all (attach new (cs ++ [b]) ctx ((cs ++ [b]).length - 1) false ((comments c).filter (!·.auto))) := by rw [hr]; rfl
  rw [e]
  unfold notes
  rw [h1, hjl, before_eq, after_eq, List.take_left, List.drop_left]
  simp [toksL]

/-- So when an `if` is made short, a comment before its `end` goes before the first statement: here `then` is followed by the token 1 of a block, and `end` is
the token 2 with the comment. -/
theorem C93_last_counterexample :
    let r := removeLast 9 [.tok ⟨0, []⟩, .node [.tok ⟨1, [⟨0, false, 5, 6⟩]⟩], .tok ⟨2, [⟨1, false, 9, 10⟩]⟩] []
    notes (toks (plug r.1 r.2)) = [⟨1, false, 9, 10⟩, ⟨0, false, 5, 6⟩] := by decide +kernel

/-- And a comment within its condition is then held by two tokens: by its own, and by the one after the condition. -/
theorem C93_move_counterexample :
    let r := wrap 8 9 (.node [.tok ⟨1, [⟨0, false, 5, 6⟩]⟩]) [([.tok ⟨0, []⟩], [.tok ⟨2, []⟩])]
    (toks (plug r.1 r.2)).map (·.comments) = [[], [⟨0, false, 5, 6⟩], [⟨0, false, 5, 6⟩]] := by decide +kernel

/-- What is copied is another comment, so that one copied with its token is there twice. -/
theorem C93_copy_counterexample :
    let r := replaceWith 8 9 (.node [.tok ⟨0, [⟨0, false, 0, 1⟩]⟩]) [] [.tok ⟨1, [⟨1, false, 0, 1⟩]⟩]
    notes (toks (plug r.1 r.2)) = [⟨0, false, 0, 1⟩, ⟨1, false, 0, 1⟩] := by decide +kernel

/-! Cases meeting the hypotheses: a node with an empty node and three tokens, the second one with a comment and a used hint. -/
private def sample : List Tree := [.node [], .tok ⟨0, []⟩, .node [.tok ⟨1, [⟨0, false, 5, 6⟩, ⟨1, true, 6, 7⟩]⟩], .tok ⟨2, [⟨2, false, 9, 10⟩]⟩]
example : Distinct (toks (plug (.node sample) [])) := by
  have : (toks (plug (.node sample) [])).map (·.id) = [0, 1, 2] := by decide +kernel
  unfold Distinct; rw [this]; decide
example : notes (toks (removeChild 9 sample [] 2).1) = [⟨0, false, 5, 6⟩, ⟨2, false, 9, 10⟩] := by decide +kernel
example : notes (toks (removeChild 9 [.tok ⟨1, [⟨0, false, 5, 6⟩]⟩] [] 0).1) = [⟨0, false, 5, 6⟩] := by decide +kernel
example : neighbour true (.node [], [([.tok ⟨0, []⟩], [.node [], .node [.tok ⟨1, []⟩]])]) = some ⟨1, []⟩ := by decide +kernel

end Verif.TreeEdit
