import Verif.MergeProgNames
/-
Helpers for C75: the merged program comes from the program by merging one pair of declarations after the other.
-/
namespace Verif.Core.Mrg
open Spec

variable {nm : Nat → Nat}

mutual
theorem rEx : ∀ e : Ex, PEx nm e e
  | .const v => .const v
  | .var x => .var x
  | .dots => .dots
  | .group e => .group (rEx e)
  | .un o e => .un o (rEx e)
  | .bin o l r => .bin o (rEx l) (rEx r)
  | .builtin f es => .builtin f (rEs es)
  | .call f es => .call (rEx f) (rEs es)
  | .index e k => .index (rEx e) (rEx k)
  | .op k m es => .op k m (rEs es)
  | .func ps d b => .func ps d (rBl b)
theorem rEs : ∀ es : List Ex, PEs nm es es
  | [] => .nil
  | e :: es => .cons (rEx e) (rEs es)
theorem rSt : ∀ s : St, PSt nm s s
  | .locals xs es => .locals xs (rEs es)
  | .localFn x ps d b => .localFn x ps d (rBl b)
  | .assign ts es => .assign (rTs ts) (rEs es)
  | .eval e => .eval (rEx e)
  | .ret es => .ret (rEs es)
  | .brk => .brk
  | .doB b => .doB (rBl b)
  | .whileS e b => .whileS (rEx e) (rBl b)
  | .repeatS b e => .repeatS (rBl b) (rEx e)
  | .forNum x es b => .forNum x (rEs es) (rBl b)
  | .forIn xs es b => .forIn xs (rEs es) (rBl b)
  | .ifS e t f => .ifS (rEx e) (rBl t) (rEl f)
theorem rBl : ∀ b : List St, PBl nm b b
  | [] => .nil
  | s :: b => .cons (rSt s) (rBl b)
theorem rEl : ∀ f : El, PEl nm f f
  | .none => .none
  | .else_ b => .else_ (rBl b)
  | .elseif e t f => .elseif (rEx e) (rBl t) (rEl f)
theorem rTg : ∀ t : Tg, PTg nm t t
  | .loc x => .loc x
  | .put k es => .put k (rEs es)
theorem rTs : ∀ ts : List Tg, PTs nm ts ts
  | [] => .nil
  | t :: ts => .cons (rTg t) (rTs ts)
end

/-! ### Declarations -/

theorem declaredEs_append : ∀ es fs : List Ex, declaredEs (es ++ fs) = declaredEs es ++ declaredEs fs
  | [], _ => rfl
  | e :: es, fs => by simp only [List.cons_append, declaredEs, declaredEs_append es fs, List.append_assoc]

theorem merged_perm (xs ys : List Nat) (n : Nat) {es es' fs fs' : List Ex} {b b' : List St} (he : (declaredEs es').Perm (declaredEs es))
    (hf : (declaredEs fs').Perm (declaredEs fs)) (hb : (declaredBl b').Perm (declaredBl b)) :
    (declaredBl (.locals (both xs n ys) (es' ++ fs') :: b')).Perm (declaredBl (.locals xs es :: .locals ys fs :: b)) := by
  simp only [declaredBl, St.declared, declaredEs_append]
  have h1 : (declaredEs es' ++ declaredEs fs' ++ both xs n ys).Perm (declaredEs es ++ declaredEs fs ++ (xs ++ ys)) :=
    (he.append hf).append (both_perm xs n ys)
  have h2 : (declaredEs es ++ declaredEs fs ++ (xs ++ ys)).Perm (declaredEs es ++ xs ++ (declaredEs fs ++ ys)) := by
    simp only [List.append_assoc]
    refine List.Perm.append_left _ ?_
    simp only [← List.append_assoc]
    exact List.Perm.append_right _ List.perm_append_comm
  have := (h1.trans h2).append hb
  simpa only [List.append_assoc] using this

mutual
theorem dEx : ∀ (e : Ex) {e' : Ex}, PEx nm e e' → e'.declared.Perm e.declared
  | .const _, _, h => by cases h; exact .refl _
  | .var _, _, h => by cases h; exact .refl _
  | .dots, _, h => by cases h; exact .refl _
  | .group e, _, h => by cases h with | group h => have := dEx e h; exact this
  | .un _ e, _, h => by cases h with | un _ h => have := dEx e h; exact this
  | .bin _ l r, _, h => by cases h with | bin _ h1 h2 => exact (dEx l h1).append (dEx r h2)
  | .builtin _ es, _, h => by cases h with | builtin _ h => exact dEs es h
  | .call f es, _, h => by cases h with | call h1 h2 => exact (dEx f h1).append (dEs es h2)
  | .index e k, _, h => by cases h with | index h1 h2 => exact (dEx e h1).append (dEx k h2)
  | .op _ _ es, _, h => by cases h with | op _ _ h => exact dEs es h
  | .func ps _ b, _, h => by cases h with | func _ _ h => exact (dBl b h).append_left ps
theorem dEs : ∀ (es : List Ex) {es' : List Ex}, PEs nm es es' → (declaredEs es').Perm (declaredEs es)
  | [], _, h => by cases h; exact .refl _
  | e :: es, _, h => by cases h with | cons h1 h2 => exact (dEx e h1).append (dEs es h2)
theorem dSt : ∀ (s : St) {s' : St}, PSt nm s s' → s'.declared.Perm s.declared
  | .locals xs es, _, h => by cases h with | locals _ h => exact (dEs es h).append_right xs
  | .localFn x ps _ b, _, h => by cases h with | localFn _ _ _ h => exact (dBl b h).append_left (x :: ps)
  | .assign ts es, _, h => by cases h with | assign h1 h2 => exact (dTs ts h1).append (dEs es h2)
  | .eval e, _, h => by cases h with | eval h => exact dEx e h
  | .ret es, _, h => by cases h with | ret h => exact dEs es h
  | .brk, _, h => by cases h; exact .refl _
  | .doB b, _, h => by cases h with | doB h => exact dBl b h
  | .whileS e b, _, h => by cases h with | whileS h1 h2 => exact (dEx e h1).append (dBl b h2)
  | .repeatS b e, _, h => by cases h with | repeatS h1 h2 => exact (dBl b h1).append (dEx e h2)
  | .forNum x es b, _, h => by cases h with | forNum _ h1 h2 => exact (dEs es h1).append ((dBl b h2).cons x)
  | .forIn xs es b, _, h => by cases h with | forIn _ h1 h2 => exact ((dEs es h1).append_right xs).append (dBl b h2)
  | .ifS e t f, _, h => by cases h with | ifS h1 h2 h3 => exact ((dEx e h1).append (dBl t h2)).append (dEl f h3)
theorem dBl : ∀ (b : List St) {b' : List St}, PBl nm b b' → (declaredBl b').Perm (declaredBl b)
  | [], _, h => by cases h; exact .refl _
  | s :: b, _, h => by
    cases h with
    | cons h1 h2 => exact (dSt s h1).append (dBl b h2)
    | @merge xs es ys fs es' fs' b2 b2' hm pe pf pb =>
      exact merged_perm xs ys es.length (dEs es pe) (dEs fs pf) (dBl b2 pb)
theorem dEl : ∀ (f : El) {f' : El}, PEl nm f f' → f'.declared.Perm f.declared
  | .none, _, h => by cases h; exact .refl _
  | .else_ b, _, h => by cases h with | else_ h => exact dBl b h
  | .elseif e t f, _, h => by cases h with | elseif h1 h2 h3 => exact ((dEx e h1).append (dBl t h2)).append (dEl f h3)
theorem dTg : ∀ (t : Tg) {t' : Tg}, PTg nm t t' → t'.declared.Perm t.declared
  | .loc _, _, h => by cases h; exact .refl _
  | .put _ es, _, h => by cases h with | put _ h => exact dEs es h
theorem dTs : ∀ (ts : List Tg) {ts' : List Tg}, PTs nm ts ts' → (declaredTs ts').Perm (declaredTs ts)
  | [], _, h => by cases h; exact .refl _
  | t :: ts, _, h => by cases h with | cons h1 h2 => exact (dTg t h1).append (dTs ts h2)
end

/-! ### Neighbours -/

abbrev Chain {α : Type} (r : α → α → Prop) := Relation.ReflTransGen r

theorem two {α β γ : Type} {r : α → α → Prop} {r' : β → β → Prop} {p : γ → γ → Prop} {F : α → β → γ}
    (h1 : ∀ {a a' b}, r a a' → p (F a b) (F a' b)) (h2 : ∀ {a b b'}, r' b b' → p (F a b) (F a b')) {a a' : α} {b b' : β} (ha : Chain r a a')
    (hb : Chain r' b b') : Chain p (F a b) (F a' b') :=
  (ha.lift (fun a => F a b) fun _ _ h => h1 h).trans (hb.lift (fun b => F a' b) fun _ _ h => h2 h)

theorem three {α β γ δ : Type} {r : α → α → Prop} {r' : β → β → Prop} {r'' : γ → γ → Prop} {p : δ → δ → Prop} {F : α → β → γ → δ}
    (h1 : ∀ {a a' b c}, r a a' → p (F a b c) (F a' b c)) (h2 : ∀ {a b b' c}, r' b b' → p (F a b c) (F a b' c))
    (h3 : ∀ {a b c c'}, r'' c c' → p (F a b c) (F a b c')) {a a' : α} {b b' : β} {c c' : γ} (ha : Chain r a a') (hb : Chain r' b b')
    (hc : Chain r'' c c') : Chain p (F a b c) (F a' b' c') :=
  (two (F := fun a b => F a b c) h1 h2 ha hb).trans (hc.lift (fun c => F a' b' c) fun _ _ h => h3 h)

theorem nd1 {l l' : List Nat} (h : (l ++ l').Nodup) : l.Nodup := (List.nodup_append.mp h).1
theorem nd2 {l l' : List Nat} (h : (l ++ l').Nodup) : l'.Nodup := (List.nodup_append.mp h).2.1

theorem _root_.Relation.ReflTransGen.nodup {b b' : List St} (h : Chain (PBl nm) b b') (hn : (declaredBl b).Nodup) : (declaredBl b').Nodup := by
  induction h with
  | refl => exact hn
  | tail _ h ih => exact (dBl _ h).nodup_iff.mpr ih

def Adj : List St → Prop
  | [] => True
  | s :: b => bare s b = false ∧ Adj b

theorem adj_of : ∀ b : List St, NoBareBl b = true → Adj b
  | [], _ => trivial
  | s :: b, h => by
    simp only [NoBareBl, Bool.and_eq_true, Bool.not_eq_true'] at h
    exact ⟨h.1.1, adj_of b h.2⟩

theorem many_eq (e : Ex) : e.many = e.multi := by cases e <;> rfl

theorem last_eq (es : List Ex) : (es.getLast?.map Ex.many).getD false = lastMany es := by
  unfold lastMany
  cases es.getLast? with
  | none => rfl
  | some e => simp [many_eq]

variable {o : Merge}

theorem multi_merged (e : Ex) : (e.merged o).multi = e.multi := by cases e <;> rfl

theorem mergedEs_map : ∀ es : List Ex, mergedEs o es = es.map (Ex.merged o)
  | [] => rfl
  | e :: es => by simp only [mergedEs, List.map_cons, mergedEs_map es]

theorem last_merged (es : List Ex) : lastMany (mergedEs o es) = lastMany es := by
  rw [mergedEs_map]
  unfold lastMany
  rw [List.getLast?_map]
  cases es.getLast? with
  | none => rfl
  | some e => simp [multi_merged]

theorem bare_merged (s : St) (b : List St) : bare (s.merged o) (mergedBl o b) = bare s b := by
  cases s with
  | locals xs es =>
    cases b with
    | nil => rfl
    | cons s' b =>
      cases s' with
      | locals ys fs =>
        cases fs with
        | nil =>
          simp only [St.merged, mergedBl, mergedEs, bare, last_eq, mergedEs_map, List.length_map]
          rw [← mergedEs_map, last_merged]
        | cons => rfl
      | _ => rfl
  | _ => cases b <;> rfl

theorem adj_merged : ∀ b : List St, Adj b → Adj (mergedBl o b)
  | [], _ => trivial
  | s :: b, h => ⟨by rw [bare_merged]; exact h.1, adj_merged b h.2⟩

theorem usesEs_mem : ∀ {es : List Ex} {x : Nat}, x ∈ usesEs es → ∃ e ∈ es, x ∈ e.uses
  | [], _, h => by cases h
  | e :: es, x, h => by
    rcases List.mem_append.mp h with h | h
    · exact ⟨e, by simp, h⟩
    · obtain ⟨e', h1, h2⟩ := usesEs_mem h
      exact ⟨e', List.mem_cons_of_mem _ h1, h2⟩

theorem may_of {xs ys : List Nat} {es fs : List Ex} {b : List St} (h : o.ok xs es ys fs = true)
    (hn : (declaredBl (.locals xs es :: .locals ys fs :: b)).Nodup) (hb : bare (.locals xs es) (.locals ys fs :: b) = false) :
    May o.name xs es ys fs := by
  simp only [Merge.ok, Bool.and_eq_true, Bool.not_eq_true', decide_eq_false_iff_not, Bool.and_eq_false_iff, Bool.or_eq_false_iff,
    List.all_eq_true, List.any_eq_false] at h
  obtain ⟨⟨⟨⟨⟨h1, h2⟩, h3⟩, h4⟩, h5⟩, h6⟩ := h
  refine ⟨?_, ?_, by omega, ?_, ?_, ?_⟩
  · simp only [declaredBl, St.declared] at hn
    have h := nd1 (l' := declaredBl b) (l := declaredEs es ++ xs ++ (declaredEs fs ++ ys)) (by simpa only [List.append_assoc] using hn)
    obtain ⟨k1, k2, k3⟩ := List.nodup_append.mp h
    exact List.nodup_append.mpr ⟨nd2 k1, nd2 k2, fun a ha b hb => k3 a (List.mem_append_right _ ha) b (List.mem_append_right _ hb)⟩
  · intro x hx hxs
    obtain ⟨e, he, hx⟩ := usesEs_mem hx
    exact h4 e he x hx (by simpa using hxs)
  · intro hlt
    obtain ⟨⟨a, b⟩, c⟩ := h2.resolve_left (fun h => h hlt)
    exact ⟨a, b, by omega⟩
  · intro hf
    subst hf
    simp only [bare, last_eq, Bool.and_eq_false_iff, decide_eq_false_iff_not] at hb
    rcases hb with hb | hb
    · exact (h2.resolve_left (fun h => h (by omega))).1.1
    · exact hb
  · intro x hx y hy
    rcases h6 with h6 | h6
    · exact absurd hx (by rw [List.drop_eq_nil_of_le (by omega)]; simp)
    · have := h6 x hx
      simp only [List.any_eq_true, not_exists, not_and] at this
      have := this y hy
      simpa using this

theorem lastMany_append (es fs : List Ex) : lastMany (es ++ fs) = if fs = [] then lastMany es else lastMany fs := by
  cases fs with
  | nil => simp
  | cons f fs =>
    simp only [lastMany, reduceCtorEq, if_false]
    rw [List.getLast?_append_of_ne_nil _ (by simp)]

theorem bare_after {xs ys : List Nat} {es fs : List Ex} {b : List St} (h : May nm xs es ys fs) (hb : bare (.locals ys fs) b = false) :
    bare (.locals (both xs es.length ys) (es ++ fs)) b = false := by
  cases b with
  | nil => rfl
  | cons s b =>
    cases s with
    | locals zs gs =>
      cases gs with
      | cons => rfl
      | nil =>
        simp only [bare, last_eq, Bool.and_eq_false_iff, decide_eq_false_iff_not, lastMany_append] at hb ⊢
        have hl := (both_perm xs es.length ys).length_eq
        have he := h.enough
        simp only [List.length_append] at hl ⊢
        rw [hl]
        split
        · rename_i hf; exact Or.inr (h.bare hf)
        · by_cases hlt : es.length < xs.length
          · exact Or.inr (h.few hlt).2.1
          · rcases hb with hb | hb
            · exact Or.inl (by omega)
            · exact Or.inr hb
    | _ => rfl

theorem join_chain : ∀ (b : List St) (p : St), (declaredBl (p :: b)).Nodup → Adj (p :: b) → Chain (PBl o.name) (p :: b) (o.join p b)
  | [], _, _, _ => .refl
  | s :: b, p, hn, ha => by
    simp only [Merge.join]
    cases ht : o.two p s with
    | none =>
      simp only
      exact (join_chain b s (nd2 hn) ha.2).lift _ fun _ _ h => .cons (rSt p) h
    | some q =>
      simp only
      cases p <;> cases s <;> simp only [Merge.two, reduceCtorEq] at ht
      rename_i xs es ys fs
      split at ht
      · rename_i hok
        cases ht
        have hm := may_of hok hn ha.1
        have step : PBl o.name (.locals xs es :: .locals ys fs :: b) (.locals (both xs es.length ys) (es ++ fs) :: b) :=
          .merge hm (rEs es) (rEs fs) (rBl b)
        refine .head step ?_
        exact join_chain b _ ((dBl _ step).nodup_iff.mpr hn) ⟨bare_after hm ha.2.1, ha.2.2⟩
      · cases ht

theorem joinAll_chain {b : List St} (hn : (declaredBl b).Nodup) (ha : Adj b) : Chain (PBl o.name) b (o.joinAll b) := by
  cases b with
  | nil => exact .refl
  | cons s b => exact join_chain b s hn ha

mutual
theorem cEx : ∀ e : Ex, e.NoBare = true → e.declared.Nodup → Chain (PEx o.name) e (e.merged o)
  | .const v, _, _ => .refl
  | .var x, _, _ => .refl
  | .dots, _, _ => .refl
  | .group e, hb, hn => (cEx e hb hn).lift _ fun _ _ h => .group h
  | .un op e, hb, hn => (cEx e hb hn).lift _ fun _ _ h => .un op h
  | .bin op l r, hb, hn => by
    simp only [Ex.NoBare, Bool.and_eq_true] at hb
    exact two (fun h => .bin op h (rEx _)) (fun h => .bin op (rEx _) h) (cEx l hb.1 (nd1 hn)) (cEx r hb.2 (nd2 hn))
  | .builtin f es, hb, hn => (cEs es hb hn).lift _ fun _ _ h => .builtin f h
  | .call f es, hb, hn => by
    simp only [Ex.NoBare, Bool.and_eq_true] at hb
    exact two (fun h => .call h (rEs _)) (fun h => .call (rEx _) h) (cEx f hb.1 (nd1 hn)) (cEs es hb.2 (nd2 hn))
  | .index e k, hb, hn => by
    simp only [Ex.NoBare, Bool.and_eq_true] at hb
    exact two (fun h => .index h (rEx _)) (fun h => .index (rEx _) h) (cEx e hb.1 (nd1 hn)) (cEx k hb.2 (nd2 hn))
  | .op k m es, hb, hn => (cEs es hb hn).lift _ fun _ _ h => .op k m h
  | .func ps d b, hb, hn => (cBl b hb (nd2 hn)).lift _ fun _ _ h => .func ps d h
theorem cEs : ∀ es : List Ex, NoBareEs es = true → (declaredEs es).Nodup → Chain (PEs o.name) es (mergedEs o es)
  | [], _, _ => .refl
  | e :: es, hb, hn => by
    simp only [NoBareEs, Bool.and_eq_true] at hb
    exact two (fun h => .cons h (rEs _)) (fun h => .cons (rEx _) h) (cEx e hb.1 (nd1 hn)) (cEs es hb.2 (nd2 hn))
theorem cSt : ∀ s : St, s.NoBare = true → s.declared.Nodup → Chain (PSt o.name) s (s.merged o)
  | .locals xs es, hb, hn => (cEs es hb (nd1 hn)).lift _ fun _ _ h => .locals xs h
  | .localFn x ps d b, hb, hn => (cBl b hb (nd2 (l := x :: ps) hn)).lift _ fun _ _ h => .localFn x ps d h
  | .assign ts es, hb, hn => by
    simp only [St.NoBare, Bool.and_eq_true] at hb
    exact two (fun h => .assign h (rEs _)) (fun h => .assign (rTs _) h) (cTs ts hb.1 (nd1 hn)) (cEs es hb.2 (nd2 hn))
  | .eval e, hb, hn => (cEx e hb hn).lift _ fun _ _ h => .eval h
  | .ret es, hb, hn => (cEs es hb hn).lift _ fun _ _ h => .ret h
  | .brk, _, _ => .refl
  | .doB b, hb, hn => (cBl b hb hn).lift _ fun _ _ h => .doB h
  | .whileS e b, hb, hn => by
    simp only [St.NoBare, Bool.and_eq_true] at hb
    exact two (fun h => .whileS h (rBl _)) (fun h => .whileS (rEx _) h) (cEx e hb.1 (nd1 hn)) (cBl b hb.2 (nd2 hn))
  | .repeatS b e, hb, hn => by
    simp only [St.NoBare, Bool.and_eq_true] at hb
    exact two (fun h => .repeatS h (rEx _)) (fun h => .repeatS (rBl _) h) (cBl b hb.1 (nd1 hn)) (cEx e hb.2 (nd2 hn))
  | .forNum x es b, hb, hn => by
    simp only [St.NoBare, Bool.and_eq_true] at hb
    exact two (fun h => .forNum x h (rBl _)) (fun h => .forNum x (rEs _) h) (cEs es hb.1 (nd1 hn)) (cBl b hb.2 (List.nodup_cons.mp (nd2 hn)).2)
  | .forIn xs es b, hb, hn => by
    simp only [St.NoBare, Bool.and_eq_true] at hb
    exact two (fun h => .forIn xs h (rBl _)) (fun h => .forIn xs (rEs _) h) (cEs es hb.1 (nd1 (nd1 hn))) (cBl b hb.2 (nd2 hn))
  | .ifS e t f, hb, hn => by
    simp only [St.NoBare, Bool.and_eq_true] at hb
    exact three (fun h => .ifS h (rBl _) (rEl _)) (fun h => .ifS (rEx _) h (rEl _)) (fun h => .ifS (rEx _) (rBl _) h)
      (cEx e hb.1.1 (nd1 (nd1 hn))) (cBl t hb.1.2 (nd2 (nd1 hn))) (cEl f hb.2 (nd2 hn))
theorem mBl : ∀ b : List St, NoBareBl b = true → (declaredBl b).Nodup → Chain (PBl o.name) b (mergedBl o b)
  | [], _, _ => .refl
  | s :: b, hb, hn => by
    simp only [NoBareBl, Bool.and_eq_true] at hb
    exact two (fun h => .cons h (rBl _)) (fun h => .cons (rSt _) h) (cSt s hb.1.2 (nd1 hn)) (mBl b hb.2 (nd2 hn))
theorem cBl (b : List St) (hb : NoBareBl b = true) (hn : (declaredBl b).Nodup) : Chain (PBl o.name) b (o.joinAll (mergedBl o b)) :=
  have h := mBl b hb hn
  h.trans (joinAll_chain (h.nodup hn) (adj_merged b (adj_of b hb)))
theorem cEl : ∀ f : El, f.NoBare = true → f.declared.Nodup → Chain (PEl o.name) f (f.merged o)
  | .none, _, _ => .refl
  | .else_ b, hb, hn => (cBl b hb hn).lift _ fun _ _ h => .else_ h
  | .elseif e t f, hb, hn => by
    simp only [El.NoBare, Bool.and_eq_true] at hb
    exact three (fun h => .elseif h (rBl _) (rEl _)) (fun h => .elseif (rEx _) h (rEl _)) (fun h => .elseif (rEx _) (rBl _) h)
      (cEx e hb.1.1 (nd1 (nd1 hn))) (cBl t hb.1.2 (nd2 (nd1 hn))) (cEl f hb.2 (nd2 hn))
theorem cTg : ∀ t : Tg, t.NoBare = true → t.declared.Nodup → Chain (PTg o.name) t (t.merged o)
  | .loc x, _, _ => .refl
  | .put k es, hb, hn => (cEs es hb hn).lift _ fun _ _ h => .put k h
theorem cTs : ∀ ts : List Tg, NoBareTs ts = true → (declaredTs ts).Nodup → Chain (PTs o.name) ts (mergedTs o ts)
  | [], _, _ => .refl
  | t :: ts, hb, hn => by
    simp only [NoBareTs, Bool.and_eq_true] at hb
    exact two (fun h => .cons h (rTs _)) (fun h => .cons (rTg _) h) (cTg t hb.1 (nd1 hn)) (cTs ts hb.2 (nd2 hn))
end

theorem chain_scoped {b b' : List St} (h : Chain (PBl nm) b b') (hs : ScopedBl [] b) : ScopedBl [] b' := by
  induction h with
  | refl => exact hs
  | tail _ h ih => exact (pBl_scoped _ h ih fun _ h => h).1

theorem chain_named {b b' : List St} (h : Chain (PBl nm) b b') (hs : NamedBl nm [] b) : NamedBl nm [] b' := by
  induction h with
  | refl => exact hs
  | tail _ h ih => exact (pBl_named _ h ih fun _ h => h).1

theorem chain_seen {H : Type} (w : World H) (lang : Lang) {b b' : List St} (h : Chain (PBl nm) b b') (hs : ScopedBl [] b) (n : Nat) (va : List V)
    (drive : List V → H → Act H) (hp : H) : (play w lang n va drive b' hp).seen = (play w lang n va drive b hp).seen := by
  induction h with
  | refl => rfl
  | tail h1 h2 ih => rw [← ih]; exact play_sim w lang (chain_scoped h1 hs) h2 n va drive hp

end Verif.Core.Mrg
