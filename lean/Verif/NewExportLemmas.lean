import Verif.NewExport
import Verif.Spec.NewExport
import Verif.Props.PodExport
import Verif.Props.Stego
/-! Lemmas for C86. -/
namespace Verif.NewExport
open Verif.PodFormat (Content Name lit Shown Part IsEntry Payload imageSize IsPod Field)
open Verif.PodFile Verif.NewExportSpec

theorem copied_bytes {t t' : List Nat} {o n : Nat} (h : CodeFormat.Copied t o n t') (ht : ∀ b ∈ t, b < 256) : ∀ b ∈ t', b < 256 := by
  obtain ⟨h1, h2, h3, h4, h5⟩ := h
  have main : ∀ m k : Nat, k < m → ∀ b, t'[k]? = some b → b < 256 := by
    intro m
    induction m with
    | zero => intro k hk; omega
    | succ m ih =>
      intro k hk b hb
      by_cases hkt : k < t.length
      · obtain ⟨r, rfl⟩ := h3
        rw [List.getElem?_append_left hkt] at hb
        exact ht b (List.mem_of_getElem? hb)
      · have hl : k < t'.length := by
          have := List.getElem?_eq_some_iff.1 hb
          exact this.1
        rw [h5 k (by omega) hl] at hb
        exact ih (k - o) (by omega) b hb
  intro b hb
  obtain ⟨k, hk⟩ := List.mem_iff_getElem?.1 hb
  exact main (k + 1) k (by omega) b hk

theorem loose_bytes {t bs d : List Nat} (h : Lz4Format.Loose t bs d) (hb : ∀ b ∈ bs, b < 256) (ht : ∀ b ∈ t, b < 256) : ∀ b ∈ d, b < 256 := by
  induction h with
  | done => exact ht
  | last lits ln cn le hl hc => exact bytes_append ht fun b h => hb b (by simp [h])
  | seq lits ln cn le ce lo hi count hl hc h hs ih =>
    have hlits : ∀ b ∈ lits, b < 256 := fun b h => hb b (by simp [h])
    refine ih (fun b h => hb b (by simp [h])) ?_
    split at h
    · obtain ⟨b, hb1, rfl⟩ := h
      refine bytes_append (bytes_append ht hlits) ?_
      intro x hx
      obtain rfl := (List.mem_replicate.1 hx).2
      exact bytes_append ht hlits x (List.mem_of_mem_head? hb1)
    · exact copied_bytes h (bytes_append ht hlits)

theorem payload_bytes {packed : Bool} {size : Nat} {d bs : List Nat} (h : Payload packed size d bs) (hb : ∀ b ∈ bs, b < 256) : ∀ b ∈ d, b < 256 := by
  cases h with
  | plain => exact hb
  | packed size h1 h2 => exact loose_bytes h2 (fun b h => hb b (by simp [h])) (by simp)

theorem entry_ok {tag : List Nat} {name : Option Name} {c : Content} {bs : List Nat} (h : IsEntry tag name c bs) (hb : ∀ b ∈ bs, b < 256) :
    ContentOk c ∧ NameOk name c := by
  cases h with
  | @file packed size nm field d bytes h1 h2 h3 =>
    refine ⟨payload_bytes h3 fun b h => hb b (by simp [h]), ?_⟩
    intro n hn
    obtain rfl := Option.some.inj hn
    obtain ⟨-, k2, rest, rfl, -⟩ := h2
    exact ⟨k2, fun b h => hb b (by simp [h])⟩
  | @bmp packed size w h bpp raw bytes h0 h1 h2 h3 h4 h5 h6 =>
    refine ⟨⟨by rw [List.length_take]; omega, fun b hx => ?_⟩, rfl⟩
    exact payload_bytes h6 (fun b h => hb b (by simp [h])) b (List.mem_of_mem_take hx)
  | pal h => exact ⟨⟨h, fun b h => hb b (by simp [h])⟩, rfl⟩

/-- What is known of a pod that was read. -/
theorem readAll_ok {data : List Nat} (hd : ∀ b ∈ data, b < 256) (hl : 76 ≤ data.length) {m : State} (h : readAll data = some m) :
    (∀ x ∈ items m, ContentOk x.2 ∧ NameOk x.1 x.2) ∧ 0 ∉ m.name ∧ ∀ b ∈ m.name, b < 256 := by
  obtain ⟨-, parts, tail, hp, he⟩ := (readAll_iff hd hl).1 h
  obtain ⟨-, hen, field, junk, ⟨-, h0, rest, rfl, -⟩, -, e⟩ := hp
  refine ⟨?_, h0, fun b hb => hd b (by rw [e]; simp [hb])⟩
  intro x hx
  rw [items, he, place_items] at hx
  obtain ⟨p, hp, rfl⟩ := List.mem_map.1 hx
  refine entry_ok (hen p hp) fun b hb => hd b ?_
  rw [e]
  simp only [List.mem_append, List.mem_flatMap]
  exact .inr (.inr (.inr (.inr (.inr (.inr (.inl ⟨p, hp, hb⟩))))))

theorem putTitle_spec {w h : Nat} {cs px px' : List Nat} {x y : Nat} (hl : px.length = w * h) (e : putTitle w h x y cs px = some px') :
    px'.length = px.length ∧ (cs ≠ [] → x + y * w + cs.length ≤ w * h) ∧
    ∀ k, px'[k]? = if x + y * w ≤ k ∧ k < x + y * w + cs.length then (cs[k - (x + y * w)]?).map (min · 255) else px[k]? := by
  induction cs generalizing x y px with
  | nil =>
    cases e
    refine ⟨rfl, by simp, fun k => ?_⟩
    rw [if_neg (by simp)]
  | cons c cs ih =>
    unfold putTitle at e
    split at e
    · next hxy =>
      have hin : x + y * w < w * h := by
        have : (y + 1) * w ≤ h * w := Nat.mul_le_mul_right w (by omega)
        rw [Nat.add_mul, Nat.mul_comm h w] at this
        omega
      have go : ∀ x' y', x' + y' * w = x + y * w + 1 → putTitle w h x' y' cs (px.set (x + y * w) (min c 255)) = some px' →
          px'.length = px.length ∧ (c :: cs ≠ [] → x + y * w + (c :: cs).length ≤ w * h) ∧
          ∀ k, px'[k]? = if x + y * w ≤ k ∧ k < x + y * w + (c :: cs).length then ((c :: cs)[k - (x + y * w)]?).map (min · 255) else px[k]? := by
        intro x' y' he e
        obtain ⟨g1, g2, g3⟩ := ih (by rw [List.length_set]; exact hl) e
        rw [he] at g2 g3
        rw [List.length_set] at g1
        refine ⟨g1, fun _ => ?_, fun k => ?_⟩
        · rw [List.length_cons]
          by_cases hc : cs = []
          · subst hc; simp only [List.length_nil]; omega
          · have := g2 hc; omega
        · rw [g3 k, List.length_cons]
          by_cases h1 : k = x + y * w
          · subst h1
            rw [if_neg (by omega), if_pos (by omega), List.getElem?_set]
            simp [hl, hin]
          · by_cases h2 : x + y * w + 1 ≤ k ∧ k < x + y * w + 1 + cs.length
            · rw [if_pos h2, if_pos (by omega), show k - (x + y * w) = (k - (x + y * w + 1)) + 1 by omega, List.getElem?_cons_succ]
            · rw [if_neg h2, if_neg (by omega), List.getElem?_set_ne (by omega)]
      split at e
      · next hw => exact go 0 (y + 1) (by rw [Nat.add_mul]; omega) e
      · exact go (x + 1) y (by omega) e
    · cases e

theorem titled {w h : Nat} {title px px' : List Nat} (hl : px.length = w * h) (e : putTitle w h 0 0 (title ++ [0]) px = some px') : Titled title px px' := by
  obtain ⟨h1, h2, h3⟩ := putTitle_spec hl e
  simp only [Nat.zero_mul, Nat.add_zero, Nat.zero_add, Nat.zero_le, true_and, List.length_append, List.length_cons, List.length_nil, Nat.sub_zero] at h2 h3
  have := h2 (by simp)
  refine ⟨by omega, h1, fun k => ?_⟩
  rw [h3 k]
  by_cases ha : k < title.length
  · rw [if_pos (by omega), if_pos ha, List.getElem?_append_left ha]
    congr 1
    funext c
    rw [Nat.min_def]
    split <;> split <;> omega
  · by_cases hb : k = title.length
    · subst hb
      rw [if_pos (by omega), if_neg ha, if_pos rfl]
      simp
    · rw [if_neg (by omega), if_neg ha, if_neg hb]

theorem titled_bytes {title px px' : List Nat} (h : Titled title px px') (hp : ∀ b ∈ px, b < 256) : ∀ b ∈ px', b < 256 := by
  intro b hb
  obtain ⟨k, hk⟩ := List.mem_iff_getElem?.1 hb
  rw [h.2.2 k] at hk
  split at hk
  · rw [Option.map_eq_some_iff] at hk
    obtain ⟨c, -, rfl⟩ := hk
    split <;> omega
  · split at hk
    · cases hk; decide
    · exact hp b (List.mem_of_getElem? hk)

theorem shot_px {i : Nat} {p : Stego.Px} (h : Stego.screenshotPx false i = some p) :
    StegoSpec.colours[i]? = some (p.r, p.g, p.b) ∧ p.a = 255 ∧ p.r < 256 ∧ p.g < 256 ∧ p.b < 256 := by
  unfold Stego.screenshotPx at h
  rw [Stego.C57_colours, List.getElem?_map] at h
  simp only [Bool.false_and, Bool.false_eq_true, if_false, Option.map_map, Option.map_eq_some_iff] at h
  obtain ⟨c, hc, rfl⟩ := h
  have : ∀ c ∈ StegoSpec.colours, c.1 < 256 ∧ c.2.1 < 256 ∧ c.2.2 < 256 := by decide
  obtain ⟨a, b, d⟩ := this c (List.mem_of_getElem? hc)
  exact ⟨hc, rfl, a, b, d⟩

theorem painted {label : List Nat} {ps : List Stego.Px} (h : Stego.createScreenshot false label = some ps) :
    Painted label (ps.flatMap fun p => [p.b, p.g, p.r, p.a]) ∧ ∀ b ∈ ps.flatMap fun p => [p.b, p.g, p.r, p.a], b < 256 := by
  unfold Stego.createScreenshot at h
  induction label generalizing ps with
  | nil =>
    simp only [List.mapM_nil] at h
    cases h
    exact ⟨⟨rfl, by simp⟩, by simp⟩
  | cons i l ih =>
    rw [List.mapM_cons] at h
    simp only [Option.bind_eq_bind, Option.bind_eq_some_iff, Option.pure_def, Option.some.injEq] at h
    obtain ⟨p, hp, qs, hq, rfl⟩ := h
    obtain ⟨⟨a, b⟩, c⟩ := ih hq
    obtain ⟨e1, e2, e3, e4, e5⟩ := shot_px hp
    rw [List.flatMap_cons]
    refine ⟨⟨by rw [List.length_append, a]; simp; omega, ?_⟩, bytes_append ?_ c⟩
    · intro k j hk
      cases k with
      | zero =>
        rw [List.getElem?_cons_zero] at hk
        cases hk
        exact ⟨p.r, p.g, p.b, e1, by simp, by simp, by simp, by simp [e2]⟩
      | succ k =>
        rw [List.getElem?_cons_succ] at hk
        obtain ⟨r, g, b', c1, c2, c3, c4, c5⟩ := b k j hk
        have sh : ∀ m, ([p.b, p.g, p.r, p.a] ++ qs.flatMap fun p => [p.b, p.g, p.r, p.a])[4 * (k + 1) + m]? =
            (qs.flatMap fun p => [p.b, p.g, p.r, p.a])[4 * k + m]? := by
          intro m
          rw [List.getElem?_append_right (by simp; omega)]
          congr 1
          simp; omega
        refine ⟨r, g, b', c1, ?_, ?_, ?_, ?_⟩
        · exact (sh 0).trans c2
        · rw [sh, c3]
        · rw [sh, c4]
        · rw [sh, c5]
    · intro x hx
      simp only [List.mem_cons, List.not_mem_nil, or_false] at hx
      omega

/-- What becomes of an entry. -/
theorem newContent_spec {title : List Nat} {label : Option (List Nat)} (hlab : ∀ l, label = some l → l.length = 128 * 128) {i : Nat} {name : Option Name}
    {c c' : Content} (hc : ContentOk c) (hn : NameOk name c) (h6 : i = 6 → label ≠ none → name = none) (e : newContent true title label i c = some c') :
    ContentOk c' ∧ NameOk name c' ∧ NewPicture title label i (name, c) (name, c') := by
  unfold newContent at e
  by_cases h4 : i = 4
  · subst h4
    simp only [Bool.true_and, beq_self_eq_true, if_true] at e
    split at e
    · next w h bpp px =>
      split at e
      · next hb =>
        subst hb
        rw [Option.map_eq_some_iff] at e
        obtain ⟨px', e, rfl⟩ := e
        have hl : px.length = w * h := by rw [hc.1]; simp [imageSize]
        have ht := titled hl e
        refine ⟨⟨by rw [ht.2.1]; exact hc.1, titled_bytes ht hc.2⟩, hn, rfl, fun _ => ⟨w, h, px, px', rfl, rfl, ht⟩, ?_, fun h => absurd rfl h⟩
        intro l h; omega
      · cases e
    · cases e
  · rw [if_neg (by simp [h4])] at e
    by_cases h6' : i = 6
    · subst h6'
      simp only [Bool.true_and, beq_self_eq_true, if_true] at e
      split at e
      · next l =>
        unfold labelPicture at e
        rw [Option.map_eq_some_iff] at e
        obtain ⟨ps, e, rfl⟩ := e
        obtain ⟨p1, p2⟩ := painted e
        refine ⟨⟨by rw [p1.1, hlab l rfl]; rfl, p2⟩, h6 rfl (by simp), rfl, fun h => absurd h h4, ?_, ?_⟩
        · intro l' _ hl'
          cases hl'
          exact ⟨_, rfl, p1⟩
        · intro _ h
          rcases h with h | h
          · exact absurd rfl h
          · cases h
      · cases e
        exact ⟨hc, hn, rfl, fun h => absurd h h4, fun l _ h => (by cases h), fun _ _ => rfl⟩
    · rw [if_neg (by simp [h6'])] at e
      cases e
      exact ⟨hc, hn, rfl, fun h => absurd h h4, fun l h => absurd h h6', fun _ _ => rfl⟩

theorem insert_name {m m' : State} {i : Nat} {name : Option Name} {c : Content} {z : Bool} (h : insertContent m i name c z = some m') : m'.name = m.name := by
  unfold insertContent at h
  rw [Option.bind_eq_some_iff] at h
  obtain ⟨x, -, h⟩ := h
  unfold updateCount at h
  rw [Option.bind_eq_some_iff] at h
  obtain ⟨b, -, h⟩ := h
  split at h
  · cases h
  · cases h; rfl

/-- Appending one entry. -/
theorem append_spec {m m' : State} (hv : Valid m) {name : Option Name} {c : Content} {z : Bool} (hc : ContentOk c) (hn : NameOk name c)
    (hl : m.entries.length ≤ 255) (h : insertContent m m.entries.length name c z = some m') :
    Valid m' ∧ items m' = items m ++ [(name, c)] ∧ m'.name = m.name := by
  have hi : (items m).length = m.entries.length := by simp [items]
  have ok : EditOk (items m) (.insert m.entries.length name c z) := by
    refine ⟨by omega, hc, hn, ?_⟩
    cases c with
    | pal => simp only [IndexOk, hi]; omega
    | _ => trivial
  obtain ⟨k1, k2⟩ := (C39_edit hv ok).2 m' h
  refine ⟨k1, ?_, insert_name h⟩
  simp only [PodFormat.apply, Option.some.injEq] at k2
  rw [← k2, ← hi, List.take_length, List.drop_length]

theorem copyEntries_spec {gfx : Bool} {title : List Nat} {label : Option (List Nat)} {P : Nat → Shown → Shown → Prop} {es : List Entry} {m m' : State} {i : Nat}
    (hv : Valid m) (hi : m.entries.length = i) (hl : i + es.length ≤ 255)
    (hP : ∀ k e c', es[k]? = some e → newContent gfx title label (i + k) e.content = some c' →
      ContentOk c' ∧ NameOk e.name c' ∧ P (i + k) (e.name, e.content) (e.name, c'))
    (h : copyEntries gfx title label m i es = some m') :
    Valid m' ∧ m'.name = m.name ∧ ∃ new, items m' = items m ++ new ∧ new.length = es.length ∧
      ∀ k e b, es[k]? = some e → new[k]? = some b → P (i + k) (e.name, e.content) b := by
  induction es generalizing m i with
  | nil =>
    cases h
    exact ⟨hv, rfl, [], by simp, rfl, by simp⟩
  | cons e es ih =>
    unfold copyEntries at h
    rw [Option.bind_eq_some_iff] at h
    obtain ⟨c, hc, h⟩ := h
    rw [Option.bind_eq_some_iff] at h
    obtain ⟨m1, hm1, h⟩ := h
    rw [List.length_cons] at hl
    obtain ⟨ok1, ok2, p0⟩ := hP 0 e c rfl hc
    obtain ⟨v1, it1, n1⟩ := append_spec hv ok1 ok2 (by omega) hm1
    have hlen : m1.entries.length = i + 1 := by
      have := congrArg List.length it1
      simp only [items, List.length_map, List.length_append, List.length_cons, List.length_nil] at this
      omega
    obtain ⟨v2, n2, new, it2, l2, p2⟩ := ih v1 hlen (by omega) (by
      intro k e' c' hk hcc
      rw [show i + 1 + k = i + (k + 1) by omega] at hcc ⊢
      exact hP (k + 1) e' c' (by simpa using hk) hcc) h
    refine ⟨v2, n2.trans n1, (e.name, c) :: new, by rw [it2, it1]; simp, by simp [l2], ?_⟩
    intro k e' b hk hb
    cases k with
    | zero =>
      simp only [List.getElem?_cons_zero, Option.some.injEq] at hk hb
      subst hk hb
      exact p0
    | succ k =>
      rw [List.getElem?_cons_succ] at hk hb
      have := p2 k e' b hk hb
      rwa [show i + 1 + k = i + (k + 1) by omega] at this

end Verif.NewExport
