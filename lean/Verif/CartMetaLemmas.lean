import Verif.CartMeta
import Verif.Spec.CartMeta
import Verif.Props.StoredPod
/-
Lemmas for C79.
-/
namespace Verif.Stored
open Verif.PodText
open Verif.Pxu (UD)

variable {F : Type} [DecidableEq F] {fl : Floats F} {isDig : Nat → Bool}

theorem keepItems_spec {keep : List Nat → Bool} : ∀ {t : Items F}, (∀ k ∈ t.keys, ∃ s, k = .str s) → t.Ok fl → ItemsBytes (fun _ => True) t →
    ∃ n, keepItems keep t = some n ∧ n.Ok fl ∧ ItemsBytes (fun _ => True) n ∧ (∀ k v, (k, v) ∈ entries n ↔ (k, v) ∈ entries t ∧ ∃ s, k = .str s ∧ keep s = true) ∧
      ∀ k ∈ n.keys, k ∈ t.keys
  | .nil, _, h1, h2 => ⟨.nil, rfl, h1, h2, by simp [entries], by simp⟩
  | .cons k v r, hk, h1, h2 => by
    obtain ⟨s, rfl⟩ := hk k (by simp [Items.keys])
    rw [Items.Ok] at h1
    rw [ItemsBytes] at h2
    obtain ⟨n, e, n1, n2, n3, n4⟩ := keepItems_spec (keep := keep) (t := r) (fun k h => hk k (by simp [Items.keys, h])) h1.2.2.2.2 h2.2.2
    refine ⟨if keep s then .cons (.str s) v n else n, by rw [keepItems, e]; rfl, ?_⟩
    by_cases hs : keep s = true
    · rw [if_pos hs]
      refine ⟨?_, ?_, ?_, ?_⟩
      · rw [Items.Ok]; exact ⟨h1.1, h1.2.1, h1.2.2.1, fun k' hk' => h1.2.2.2.1 k' (n4 k' hk'), n1⟩
      · rw [ItemsBytes]; exact ⟨h2.1, h2.2.1, n2⟩
      · intro k w
        rw [entries, entries, List.mem_cons, List.mem_cons, n3]
        constructor
        · rintro (h | ⟨h, h'⟩)
          · cases h; exact ⟨.inl rfl, s, rfl, hs⟩
          · exact ⟨.inr h, h'⟩
        · rintro ⟨h | h, h'⟩
          · exact .inl h
          · exact .inr ⟨h, h'⟩
      · intro k h
        rcases List.mem_cons.1 h with h | h
        · exact List.mem_cons.2 (.inl h)
        · exact List.mem_cons.2 (.inr (n4 k h))
    · rw [if_neg hs]
      refine ⟨n1, n2, ?_, fun k h => List.mem_cons.2 (.inr (n4 k h))⟩
      intro k w
      rw [n3, entries, List.mem_cons]
      constructor
      · rintro ⟨h, h'⟩; exact ⟨.inr h, h'⟩
      · rintro ⟨h | h, s', rfl, h'⟩
        · cases h; exact absurd h' hs
        · exact ⟨h, s', rfl, h'⟩

theorem putItem_spec {key : List Nat} {v : Val F} (hv1 : v.isNil = false) (hv2 : v.Ok fl) (hv3 : ValBytes (fun _ => True) v) (hk : FromBytes key) :
    ∀ {n : Items F}, n.Ok fl → ItemsBytes (fun _ => True) n → (∀ w, (.str key, w) ∈ entries n → w = v) →
    (putItem key v n).Ok fl ∧ ItemsBytes (fun _ => True) (putItem key v n) ∧ (∀ k ∈ (putItem key v n).keys, k ∈ n.keys ∨ k = .str key) ∧
      (∀ k w, (k, w) ∈ entries (putItem key v n) ↔ (k, w) ∈ entries n ∨ (k = .str key ∧ w = v))
  | .nil, _, _, _ => by
    refine ⟨?_, ?_, ?_, ?_⟩
    · rw [putItem, Items.Ok]; exact ⟨trivial, hv1, hv2, by simp [Items.keys], trivial⟩
    · rw [putItem, ItemsBytes]; exact ⟨hk, hv3, trivial⟩
    · simp [putItem, Items.keys]
    · simp [putItem, entries]
  | .cons k u r, h1, h2, h3 => by
    rw [Items.Ok] at h1
    rw [ItemsBytes] at h2
    rw [putItem]
    by_cases hs : k = .str key
    · rw [if_pos hs]
      subst hs
      obtain rfl := h3 u (by simp [entries])
      refine ⟨by rw [Items.Ok]; exact h1, by rw [ItemsBytes]; exact h2, fun k h => .inl h, fun k w => ?_⟩
      constructor
      · exact .inl
      · rintro (h | ⟨rfl, rfl⟩)
        · exact h
        · simp [entries]
    · rw [if_neg hs]
      obtain ⟨p1, p2, p3, p4⟩ := putItem_spec hv1 hv2 hv3 hk h1.2.2.2.2 h2.2.2 (fun w h => h3 w (by simp [entries, h]))
      refine ⟨?_, ?_, ?_, ?_⟩
      · rw [Items.Ok]
        refine ⟨h1.1, h1.2.1, h1.2.2.1, fun k' hk' => ?_, p1⟩
        rcases p3 k' hk' with h | rfl
        · exact h1.2.2.2.1 k' h
        · exact fun h => hs (norm_str (fl := fl) h.symm)
      · rw [ItemsBytes]; exact ⟨h2.1, h2.2.1, p2⟩
      · intro k' h
        rcases List.mem_cons.1 h with h | h
        · exact .inl (List.mem_cons.2 (.inl h))
        · rcases p3 k' h with h | h
          · exact .inl (List.mem_cons.2 (.inr h))
          · exact .inr h
      · intro k' w
        rw [entries, entries, List.mem_cons, List.mem_cons, p4]
        constructor
        · rintro (h | h | h)
          · exact .inl (.inl h)
          · exact .inl (.inr h)
          · exact .inr h
        · rintro ((h | h) | h)
          · exact .inl h
          · exact .inr (.inl h)
          · exact .inr (.inr h)

theorem entry_ok : ∀ {t : Items F} {k : Key F} {v : Val F}, t.Ok fl → ItemsBytes (fun _ => True) t → (k, v) ∈ entries t →
    v.isNil = false ∧ v.Ok fl ∧ ValBytes (fun _ => True) v ∧ KeyBytes k
  | .nil, _, _, _, _, h => by cases h
  | .cons k' w r, k, v, h1, h2, h => by
    rw [Items.Ok] at h1
    rw [ItemsBytes] at h2
    rcases List.mem_cons.1 h with h | h
    · cases h; exact ⟨h1.2.1, h1.2.2.1, h2.2.1, h2.1⟩
    · exact entry_ok h1.2.2.2.2 h2.2.2 h

theorem addItem_spec {t n : Items F} (ht : MetaFits fl t) (hn : MetaFits fl n) (hs : ∀ k v, (k, v) ∈ entries n → (k, v) ∈ entries t) (key : List Nat) :
    MetaFits fl (addItem t n key) ∧ (∀ k v, (k, v) ∈ entries (addItem t n key) ↔ (k, v) ∈ entries n ∨ (k = .str key ∧ (k, v) ∈ entries t)) := by
  unfold addItem
  cases h : lookupItem key t with
  | none =>
    refine ⟨hn, fun k v => ⟨.inl, ?_⟩⟩
    rintro (h' | ⟨rfl, h'⟩)
    · exact h'
    · rw [(lookup_iff ht.1).2 h'] at h; cases h
  | some v =>
    have hm := (lookup_iff ht.1).1 h
    obtain ⟨e1, e2, e3, e4⟩ := entry_ok ht.1 ht.2 hm
    obtain ⟨p1, p2, -, p4⟩ := putItem_spec (key := key) e1 e2 e3 e4 hn.1 hn.2 (fun w hw => by
      have := (lookup_iff ht.1).2 (hs _ _ hw)
      rw [h] at this
      exact (Option.some.inj this).symm)
    refine ⟨⟨p1, p2⟩, fun k w => ?_⟩
    simp only
    rw [p4]
    constructor
    · rintro (h' | ⟨rfl, rfl⟩)
      · exact .inl h'
      · exact .inr ⟨rfl, hm⟩
    · rintro (h' | ⟨rfl, h'⟩)
      · exact .inl h'
      · have := (lookup_iff ht.1).2 h'
        rw [h] at this
        exact .inr ⟨rfl, (Option.some.inj this).symm⟩

theorem empty_iff {n : Items F} : Items.empty n = true ↔ n = .nil := by cases n <;> simp [Items.empty]

/-- The new metadata. -/
theorem keepMeta_spec {keep : List Nat → Bool} (raw : Bool) {t : Items F} (hk : ∀ k ∈ t.keys, ∃ s, k = .str s) (ht : MetaFits fl t) :
    (AnyKept keep (entries t) → ∃ n, keepMeta keep raw t = some (some n) ∧ MetaFits fl n ∧ Items.empty n = false ∧
      ∀ k v, (k, v) ∈ entries n ↔ Kept keep (entries t) k v) ∧
    (¬ AnyKept keep (entries t) → keepMeta keep raw t = some (if raw then none else some .nil)) := by
  obtain ⟨n, e, n1, n2, n3, -⟩ := keepItems_spec (keep := keep) hk ht.1 ht.2
  have hany : AnyKept keep (entries t) ↔ n ≠ .nil := by
    constructor
    · rintro ⟨s, v, h1, h2⟩ rfl
      exact absurd ((n3 (.str s) v).2 ⟨h1, s, rfl, h2⟩) (by simp [entries])
    · intro h
      cases n with
      | nil => exact absurd rfl h
      | cons k v r =>
        obtain ⟨h1, s, rfl, h2⟩ := (n3 k v).1 (by simp [entries])
        exact ⟨s, v, h1, h2⟩
  constructor
  · intro ha
    have hn := hany.1 ha
    have he : Items.empty n = false := by rw [Bool.eq_false_iff, ne_eq, empty_iff]; exact hn
    obtain ⟨a1, a2⟩ := addItem_spec (n := n) ht ⟨n1, n2⟩ (fun k v h => ((n3 k v).1 h).1) (txt "pod_format")
    obtain ⟨b1, b2⟩ := addItem_spec ht a1 (fun k v h => by
      rcases (a2 k v).1 h with h | ⟨-, h⟩
      · exact ((n3 k v).1 h).1
      · exact h) (txt "pod_type")
    refine ⟨addItem t (addItem t n (txt "pod_format")) (txt "pod_type"), ?_, b1, ?_, ?_⟩
    · unfold keepMeta
      rw [e]
      simp only [Option.map_some, he, Bool.false_eq_true, if_false, List.foldl_cons, List.foldl_nil]
    · obtain ⟨s, v, h1, h2⟩ := ha
      have := (b2 (.str s) v).2 (.inl ((a2 _ _).2 (.inl ((n3 _ _).2 ⟨h1, s, rfl, h2⟩))))
      generalize addItem t (addItem t n (txt "pod_format")) (txt "pod_type") = m at this
      cases m with
      | nil => simp [entries] at this
      | cons => rfl
    · intro k v
      rw [b2, a2, n3]
      constructor
      · rintro ((⟨h, s, rfl, h'⟩ | ⟨rfl, h⟩) | ⟨rfl, h⟩)
        · exact ⟨h, s, rfl, .inl h'⟩
        · exact ⟨h, _, rfl, .inr ⟨ha, .inl rfl⟩⟩
        · exact ⟨h, _, rfl, .inr ⟨ha, .inr rfl⟩⟩
      · rintro ⟨h, s, rfl, h' | ⟨-, rfl | rfl⟩⟩
        · exact .inl (.inl ⟨h, s, rfl, h'⟩)
        · exact .inl (.inr ⟨rfl, h⟩)
        · exact .inr ⟨rfl, h⟩
  · intro ha
    have hn : n = .nil := Classical.byContradiction fun h => ha (hany.2 h)
    unfold keepMeta
    rw [e, hn]
    rfl

end Verif.Stored
