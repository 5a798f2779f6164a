import Verif.PtFileLemmas
import Verif.StrLit
/-! # C49: metadata and payload of a Picotron file are independent -/
namespace Verif.PtFile

variable {M P : Type}

/-- C49, reading: metadata is what stands between `--[[` and the first `]]`, the payload what follows, and the file is raw
exactly if the metadata starts with `pod_format="raw"`. -/
theorem C49_read {md : List Nat} (hg : GoodMeta md) (pay : List Nat) :
    rawMeta (asc "--[[" ++ md ++ asc "]]" ++ pay) = some md ∧ rawPayload (asc "--[[" ++ md ++ asc "]]" ++ pay) = pay ∧
      (isRaw (asc "--[[" ++ md ++ asc "]]" ++ pay) = true ↔ asc "pod_format=\"raw\"" <+: md) := by
  obtain ⟨h1, h2⟩ := rawMeta_layout hg pay
  refine ⟨h1, h2, ?_⟩
  have hs := starts_layout hg pay
  have hraw : rawPrefix = metaPrefix ++ asc "pod_format=\"raw\"" := by decide
  unfold isRaw
  rw [show asc "--[[" ++ md ++ asc "]]" ++ pay = metaPrefix ++ md ++ metaSuffix ++ pay from rfl, hs, hraw]
  simp only [Bool.not_true, Bool.false_or]
  unfold starts
  rw [List.isPrefixOf_iff_prefix, List.append_assoc, List.append_assoc, List.prefix_append_right_inj]
  constructor
  · intro h
    rcases List.prefix_or_prefix_of_prefix h (List.prefix_append md _) with h | h
    · exact h
    · -- the metadata would be cut inside `pod_format="raw"`, which has no bracket
      obtain ⟨t, ht⟩ := h
      cases t with
      | nil => rw [List.append_nil] at ht; rw [ht]; exact List.prefix_refl _
      | cons c t =>
        rw [← ht, List.prefix_append_right_inj, suffix_eq] at h
        obtain ⟨u, hu⟩ := h
        simp only [List.cons_append, List.cons.injEq] at hu
        have : (93 : Nat) ∈ asc "pod_format=\"raw\"" := by rw [← ht, hu.1]; simp
        exact absurd this (by decide)
  · intro h
    exact h.trans (List.prefix_append _ _)

/-- C49, reading data without metadata. -/
theorem C49_read_plain {data : List Nat} (h : ¬ asc "--[[pod" <+: data) :
    rawMeta data = none ∧ rawPayload data = data ∧ isRaw data = true := by
  have hs : starts podPrefix data = false := by
    unfold starts
    rw [Bool.eq_false_iff]
    exact fun e => h (List.isPrefixOf_iff_prefix.mp e)
  obtain ⟨h1, h2⟩ := starts_plain hs
  exact ⟨h1, h2, by simp [isRaw, hs]⟩

/-- C49: metadata is read back as set, and the payload is as before - whatever the file was. -/
theorem C49_set_raw_metadata (f : File M P) {md : List Nat} (hg : GoodMeta md) :
    rawMeta (setRawMeta f (some md)).data = some md ∧ rawPayload (setRawMeta f (some md)).data = rawPayload f.data :=
  rawMeta_layout hg _

/-- C49: removing the metadata keeps the payload, provided that this does not itself look like metadata. -/
theorem C49_remove_metadata (f : File M P) (h : ¬ asc "--[[pod" <+: rawPayload f.data) :
    rawMeta (setRawMeta f none).data = none ∧ rawPayload (setRawMeta f none).data = rawPayload f.data := by
  obtain ⟨h1, h2, -⟩ := C49_read_plain h
  exact ⟨h1, h2⟩

/-- Files to which a payload can be set: those without metadata take everything that does not look like metadata; those
with metadata that is not closed must not end with `]`. -/
def CanSet (data value : List Nat) : Prop :=
  (¬ asc "--[[pod" <+: data → ¬ asc "--[[pod" <+: value) ∧
  (asc "--[[pod" <+: data → ¬ asc "]]" <:+: data → data.getLast? ≠ some 93)

theorem set_payload_layout {data value : List Nat} (h : CanSet data value) (f : File M P) (hd : f.data = data) :
    rawMeta (setRawPayload f value).data = rawMeta data ∧ rawPayload (setRawPayload f value).data = value ∧
      isRaw (setRawPayload f value).data = isRaw data := by
  subst hd
  rcases layout_cases f.data with hs | ⟨md, hg, hd⟩ | ⟨h1, h2, h3, h4⟩
  · have hn : ¬ asc "--[[pod" <+: f.data := by
      intro hp
      have : starts podPrefix f.data = true := List.isPrefixOf_iff_prefix.mpr hp
      rw [hs] at this
      cases this
    obtain ⟨p1, p2, p3⟩ := C49_read_plain hn
    obtain ⟨q1, q2, q3⟩ := C49_read_plain (h.1 hn)
    unfold setRawPayload
    simp only [p1]
    exact ⟨q1, q2, by rw [q3, p3]⟩
  · obtain ⟨e1, e2, e3⟩ := C49_read hg (rawPayload f.data)
    have e4 := hd
    rw [show metaPrefix ++ md ++ metaSuffix ++ rawPayload f.data = asc "--[[" ++ md ++ asc "]]" ++ rawPayload f.data from rfl] at e4
    rw [← e4] at e1 e3
    unfold setRawPayload
    simp only [e1]
    obtain ⟨q1, q2, q3⟩ := C49_read hg value
    refine ⟨q1, q2, ?_⟩
    rw [Bool.eq_iff_iff]
    exact q3.trans e3.symm
  · have hlast := h.2 h1 h2
    obtain ⟨t, ht⟩ := h1
    have hg : GoodMeta (f.data.drop 4) := by
      have hd : f.data.drop 4 = asc "pod" ++ t := by rw [← ht]; rfl
      refine ⟨⟨t, hd.symm⟩, ?_, ?_⟩
      · rintro ⟨a, b, hab⟩
        exact h2 ⟨f.data.take 4 ++ a, b, by rw [List.append_assoc, List.append_assoc, ← List.append_assoc a, hab, List.take_append_drop]⟩
      · intro hl
        apply hlast
        rw [← ht, show asc "--[[pod" ++ t = asc "--[[" ++ (asc "pod" ++ t) from rfl, ← hd, List.getLast?_append, hl]
        rfl
    have e4 : f.data = asc "--[[" ++ f.data.drop 4 := by rw [← ht]; rfl
    unfold setRawPayload
    simp only [h3]
    obtain ⟨q1, q2, q3⟩ := C49_read hg value
    refine ⟨q1, q2, ?_⟩
    rw [Bool.eq_iff_iff]
    refine q3.trans ?_
    have hs : starts podPrefix f.data = true := by
      unfold starts; rw [List.isPrefixOf_iff_prefix]; exact ⟨t, ht⟩
    unfold isRaw
    rw [hs]
    simp only [Bool.not_true, Bool.false_or]
    unfold starts
    rw [List.isPrefixOf_iff_prefix, show rawPrefix = asc "--[[" ++ asc "pod_format=\"raw\"" from by decide]
    conv => rhs; rw [e4]
    rw [List.prefix_append_right_inj]

/-- C49: a payload is read back as set, and the metadata is as before. -/
theorem C49_set_raw_payload (f : File M P) (value : List Nat) (h : CanSet f.data value) :
    rawPayload (setRawPayload f value).data = value ∧ rawMeta (setRawPayload f value).data = rawMeta f.data :=
  ⟨(set_payload_layout h f rfl).2.1, (set_payload_layout h f rfl).1⟩

/-! ## Parsed values and caches -/

/-- What is assumed of the two formats: they are read back, and metadata can be told from what follows. -/
structure Codec.Good (c : Codec M P) : Prop where
  md : ∀ v, c.parseMeta (c.fmtMeta v) = some v
  good : ∀ v, GoodMeta (c.fmtMeta v)
  pod : ∀ p, c.readPod (c.writePod p) = some p

/-- Operations on a file. -/
inductive Op (M P : Type) where
  | metadata (v : Option M)
  | payload (v : Value P)

def Op.run (c : Codec M P) (f : File M P) : Op M P → Option (File M P)
  | .metadata v => some (setMeta c f v)
  | .payload v => setPayload c f v

def runAll (c : Codec M P) : File M P → List (Op M P) → Option (File M P)
  | f, [] => some f
  | f, op :: ops => (op.run c f).bind fun f => runAll c f ops

/-- The operations that the file can take: metadata of the raw format (or no metadata) must not be set once a pod was set
(the payload would change its kind), and payloads as in `CanSet`. -/
def Op.Ok (c : Codec M P) (f : File M P) : Op M P → Prop
  | .metadata none => f.payCache = none
  | .metadata (some v) => f.payCache = none ∨ ¬ asc "pod_format=\"raw\"" <+: c.fmtMeta v
  | .payload (.bytes b) => CanSet f.data b
  | .payload (.pod p) => CanSet f.data (c.writePod p)

def AllOk (c : Codec M P) : File M P → List (Op M P) → Prop
  | _, [] => True
  | f, op :: ops => op.Ok c f ∧ ∀ f', op.run c f = some f' → AllOk c f' ops

/-- The caches agree with the data. -/
def Coherent (c : Codec M P) (f : File M P) : Prop :=
  (∀ v, f.metaCache = some v → rawMeta f.data = some (c.fmtMeta v)) ∧
  (∀ p, f.payCache = some p → isRaw f.data = false ∧ rawPayload f.data = c.writePod p)

theorem Coherent.step {c : Codec M P} (hc : c.Good) {f f' : File M P} (h : Coherent c f) {op : Op M P} (hok : op.Ok c f)
    (hr : op.run c f = some f') : Coherent c f' := by
  obtain ⟨h1, h2⟩ := h
  match op, hok, hr with
  | .metadata none, hok, hr =>
    simp only [Op.run, Option.some.injEq] at hr
    subst hr
    have hok : f.payCache = none := hok
    constructor
    · intro v hv; simp [setMeta, setRawMeta] at hv
    · intro p hp; simp [setMeta, setRawMeta, hok] at hp
  | .metadata (some v), hok, hr =>
    simp only [Op.run, Option.some.injEq] at hr
    subst hr
    obtain ⟨e1, e2⟩ := C49_set_raw_metadata f (hc.good v)
    constructor
    · intro v' hv'
      simp only [setMeta, Option.some.injEq] at hv' ⊢
      subst hv'
      exact e1
    · intro p hp
      have hp : f.payCache = some p := hp
      obtain ⟨a, b⟩ := h2 p hp
      refine ⟨?_, e2.trans b⟩
      have hok : f.payCache = none ∨ _ := hok
      rcases hok with hn | hn
      · rw [hn] at hp; cases hp
      · have := (C49_read (hc.good v) (rawPayload f.data)).2.2
        rw [Bool.eq_false_iff]
        intro e
        exact hn (this.mp e)
  | .payload (.bytes b), hok, hr =>
    simp only [Op.run, setPayload] at hr
    split at hr
    · simp only [Option.some.injEq] at hr
      subst hr
      obtain ⟨e1, e2, e3⟩ := set_payload_layout hok f rfl
      exact ⟨fun v hv => e1.trans (h1 v hv), fun p hp => by simp [setRawPayload] at hp⟩
    · simp at hr
  | .payload (.pod p), hok, hr =>
    simp only [Op.run, setPayload] at hr
    split at hr
    · simp at hr
    · rename_i hraw
      simp only [Option.some.injEq] at hr
      subst hr
      obtain ⟨e1, e2, e3⟩ := set_payload_layout hok f rfl
      refine ⟨fun v hv => e1.trans (h1 v hv), fun p' hp => ?_⟩
      simp only [Option.some.injEq] at hp
      subst hp
      exact ⟨by rw [e3]; simpa using hraw, e2⟩

/-- C49, whole histories: after any sequence of operations on a freshly loaded file, `metadata` and `payload` give what the
file's data would give if it were saved and loaded again. -/
theorem C49_history {c : Codec M P} (hc : c.Good) (data : List Nat) (ops : List (Op M P)) {f : File M P}
    (hok : AllOk c ⟨data, none, none⟩ ops) (hr : runAll c ⟨data, none, none⟩ ops = some f) :
    getMeta c f = getMeta c ⟨f.data, none, none⟩ ∧ getPayload c f = getPayload c ⟨f.data, none, none⟩ := by
  have key : ∀ (ops : List (Op M P)) (g f : File M P), Coherent c g → AllOk c g ops → runAll c g ops = some f → Coherent c f := by
    intro ops
    induction ops with
    | nil => intro g f hg _ hr; simp only [runAll, Option.some.injEq] at hr; subst hr; exact hg
    | cons op ops ih =>
      intro g f hg hok hr
      simp only [runAll, Option.bind_eq_some_iff] at hr
      obtain ⟨g', h1, h2⟩ := hr
      exact ih g' f (hg.step hc hok.1 h1) (hok.2 g' h1) h2
  obtain ⟨h1, h2⟩ := key ops _ f ⟨by simp, by simp⟩ hok hr
  constructor
  · unfold getMeta
    cases hm : f.metaCache with
    | none => rfl
    | some v => simp only [h1 v hm, hc.md, Option.map_some]
  · unfold getPayload
    cases hp : f.payCache with
    | none => rfl
    | some p =>
      obtain ⟨a, b⟩ := h2 p hp
      simp only [a, b, Bool.false_eq_true, if_false, hc.pod, Option.map_some]

/-- C49: metadata that was set is what `metadata` gives, and `payload` gives the same as before unless the file's kind
changes. -/
theorem C49_metadata {c : Codec M P} (hc : c.Good) (f : File M P) (v : M) :
    getMeta c (setMeta c f (some v)) = some (some v) ∧
    ((isRaw f.data = true ↔ asc "pod_format=\"raw\"" <+: c.fmtMeta v) →
      getPayload c (setMeta c f (some v)) = getPayload c f) := by
  refine ⟨rfl, fun hraw => ?_⟩
  obtain ⟨e1, e2⟩ := C49_set_raw_metadata f (hc.good v)
  have e3 : isRaw (setMeta c f (some v)).data = isRaw f.data := by
    rw [Bool.eq_iff_iff]
    exact ((C49_read (hc.good v) (rawPayload f.data)).2.2).trans hraw.symm
  have e4 : (setMeta c f (some v)).payCache = f.payCache := rfl
  unfold getPayload
  rw [e3, e4, show rawPayload (setMeta c f (some v)).data = rawPayload f.data from e2]

/-- C49: a payload of the file's kind can be set, `payload` then gives it, and `metadata` gives the same as before. -/
theorem C49_payload {c : Codec M P} (f : File M P) (v : Value P) (hok : (Op.payload v : Op M P).Ok c f)
    (hk : isRaw f.data = true ↔ ∃ b, v = .bytes b) :
    ∃ f', setPayload c f v = some f' ∧ getPayload c f' = some v ∧ getMeta c f' = getMeta c f := by
  match v, hok, hk with
  | .bytes b, hok, hk =>
    have hraw : isRaw f.data = true := hk.mpr ⟨b, rfl⟩
    obtain ⟨e1, e2, e3⟩ := set_payload_layout hok f rfl
    refine ⟨setRawPayload f b, by simp [setPayload, hraw], ?_, ?_⟩
    · simp [getPayload, setRawPayload] at e2 e3 ⊢
      rw [e2, e3, hraw]; rfl
    · unfold getMeta
      rw [show (setRawPayload f b).metaCache = f.metaCache from rfl, e1]
  | .pod p, hok, hk =>
    have hraw : isRaw f.data = false := by
      rw [Bool.eq_false_iff]; intro e; obtain ⟨b, hb⟩ := hk.mp e; cases hb
    obtain ⟨e1, e2, e3⟩ := set_payload_layout hok f rfl
    refine ⟨{ setRawPayload f (c.writePod p) with payCache := some p }, by simp [setPayload, hraw], rfl, ?_⟩
    unfold getMeta
    show (match f.metaCache with | _ => _) = _
    rw [show ({ setRawPayload f (c.writePod p) with payCache := some p } : File M P).data = (setRawPayload f (c.writePod p)).data from rfl, e1]
    rfl

/-- C49: new files have the payload and the metadata they were created with (a pod without metadata gets the bare `pod`). -/
theorem C49_create {c : Codec M P} (hc : c.Good) (v : Value P) (m : Option M)
    (hk : (∃ b, v = .bytes b) ↔ ∀ x, m = some x → asc "pod_format=\"raw\"" <+: c.fmtMeta x)
    (hb : ∀ b, v = .bytes b → m = none → ¬ asc "--[[pod" <+: b) (hm : (∃ p, v = .pod p) → m ≠ none) :
    ∃ f, create c v m = some f ∧ getPayload c f = some v ∧ getMeta c f = some m := by
  cases m with
  | none =>
    match v, hb, hm with
    | .bytes b, hb, hm =>
      have hd : isRaw ([] : List Nat) = true := by decide
      obtain ⟨f, h1, h2, h3⟩ := C49_payload (c := c) (⟨[], none, none⟩ : File M P) (.bytes b)
        ⟨fun _ => hb b rfl rfl, fun h => by simp at h⟩ ⟨fun _ => ⟨b, rfl⟩, fun _ => hd⟩
      refine ⟨f, h1, h2, h3.trans ?_⟩
      simp [getMeta, C49_read_plain (data := []) (by simp)]
    | .pod p, hb, hm => exact absurd rfl (hm ⟨p, rfl⟩)
  | some x =>
    have hkind : isRaw (setMeta c (⟨[], none, none⟩ : File M P) (some x)).data = true ↔ ∃ b, v = .bytes b := by
      rw [hk]
      refine ((C49_read (hc.good x) (rawPayload [])).2.2).trans ?_
      simp
    obtain ⟨e1, e2⟩ := C49_set_raw_metadata (⟨[], none, none⟩ : File M P) (hc.good x)
    have hcan : ∀ value, CanSet (setMeta c (⟨[], none, none⟩ : File M P) (some x)).data value := by
      intro value
      have hp : asc "--[[pod" <+: asc "--[[" ++ c.fmtMeta x ++ asc "]]" ++ rawPayload [] := by
        obtain ⟨t, ht⟩ := (hc.good x).1
        exact ⟨t ++ asc "]]" ++ rawPayload [], by rw [← ht]; simp; rfl⟩
      exact ⟨fun h => absurd hp h, fun _ h => absurd ⟨asc "--[[" ++ c.fmtMeta x, rawPayload [], rfl⟩ h⟩
    obtain ⟨f, h1, h2, h3⟩ := C49_payload (c := c) (setMeta c (⟨[], none, none⟩ : File M P) (some x)) v
      (match v with | .bytes b => hcan b | .pod p => hcan _) hkind
    exact ⟨f, h1, h2, h3.trans rfl⟩

/-- C49: a pod without metadata gets the bare metadata `pod`. -/
theorem C49_create_pod (c : Codec M P) (p : P) :
    ∃ f, create c (.pod p) none = some f ∧ getPayload c f = some (.pod p) ∧ f.data = asc "--[[pod]]" ++ c.writePod p := by
  have h1 : isRaw (setRawMeta (⟨[], none, none⟩ : File M P) (some (asc "pod"))).data = false := by
    show isRaw (asc "--[[pod]]") = false
    decide
  have h2 : rawMeta (setRawMeta (⟨[], none, none⟩ : File M P) (some (asc "pod"))).data = some (asc "pod") := by
    show rawMeta (asc "--[[pod]]") = some (asc "pod")
    decide
  refine ⟨_, by simp only [create, setPayload, h1]; rfl, rfl, ?_⟩
  simp only [setRawPayload, h2]
  rfl

/-! ## Examples -/

/-- A simple pair of formats for the examples: metadata is `pod` or the raw format, pods are numbers. -/
def exCodec : Codec Bool Nat where
  fmtMeta b := if b then asc "pod_format=\"raw\"" else asc "pod"
  parseMeta s := if s = asc "pod" then some false else if s = asc "pod_format=\"raw\"" then some true else none
  writePod n := [n]
  readPod s := s.head?

theorem exCodec_good : exCodec.Good where
  md v := by cases v <;> decide
  good v := by
    unfold GoodMeta
    rw [← splitAt_infix, ← List.isPrefixOf_iff_prefix]
    cases v <;> decide
  pod p := rfl

example : GoodMeta (asc "pod_format=\"raw\",title=\"a]\"") := by
  unfold GoodMeta
  rw [← splitAt_infix, ← List.isPrefixOf_iff_prefix]
  decide

/-- A pod set on a loaded file, then other metadata, then another pod. -/
example : ∃ f, runAll exCodec ⟨asc "--[[pod]]\n", none, none⟩ [.payload (.pod 7), .metadata (some false), .payload (.pod 8)] = some f ∧
    f.data = asc "--[[pod]]" ++ [8] ∧ getPayload exCodec f = some (.pod 8) ∧ getMeta exCodec f = some (some false) :=
  ⟨_, rfl, by decide, by decide, by decide⟩

/-! ## Where it fails -/

/-- A payload that looks like metadata, set on a file without any, becomes metadata; and metadata that ends with `]` without
being closed is cut when the payload is set. -/
theorem C49_payload_counterexample :
    (rawMeta (setRawPayload (⟨[], none, none⟩ : File Bool Nat) (asc "--[[pod]]x")).data = some (asc "pod") ∧
      rawPayload (setRawPayload (⟨[], none, none⟩ : File Bool Nat) (asc "--[[pod]]x")).data = asc "x") ∧
    (rawMeta (asc "--[[pod]") = some (asc "pod]") ∧
      rawMeta (setRawPayload (⟨asc "--[[pod]", none, none⟩ : File Bool Nat) (asc "x")).data = some (asc "pod") ∧
      rawPayload (setRawPayload (⟨asc "--[[pod]", none, none⟩ : File Bool Nat) (asc "x")).data = asc "]x") := by
  decide +kernel

/-- Removing the metadata after a pod was set leaves the cached pod: `payload` gives the pod although the file is now raw,
and after saving and loading it gives bytes. -/
theorem C49_cache_counterexample : ∃ f, exCodec.Good ∧
    runAll exCodec ⟨asc "--[[pod]]", none, none⟩ [.payload (.pod 7), .metadata none] = some f ∧ isRaw f.data = true ∧
    getPayload exCodec f = some (.pod 7) ∧ getPayload exCodec ⟨f.data, none, none⟩ = some (.bytes [7]) :=
  ⟨_, exCodec_good, rfl, by decide, by decide, by decide⟩

/-! ## Escaping -/

/-- C49: `escape_meta` always ends, and makes metadata that can be told from what follows: text that starts with `pod` and
does not end with a bracket keeps both properties and has no `]]` any more. -/
theorem C49_escape (s : List Nat) : ∃ t, escapeMeta s = some t ∧ ¬ asc "]]" <:+: t ∧ t.getLast? = s.getLast? ∧
    (asc "pod" <+: s → s.getLast? ≠ some 93 → GoodMeta t) := by
  refine ⟨esc s, escapeLoop_eq _ s (Nat.le_refl _), esc_no s, esc_last s, ?_⟩
  rintro ⟨r, rfl⟩ h2
  refine ⟨?_, esc_no _, ?_⟩
  · rw [esc_append_ne (by decide)]
    exact List.prefix_append _ _
  · rw [esc_last]; exact h2

/-- C49: a string literal (as written by `format_pod`) inside escaped metadata still has its value, and what surrounds it is
escaped on its own. -/
theorem C49_escape_string {isDig : Nat → Bool} (hd : AsciiDig isDig) (pico8 useCtrl : Bool) (a v b : List Nat) :
    ∃ a' lit b', escapeMeta (a ++ formatQuoted isDig useCtrl (some 34) v ++ b) = some (a' ++ lit ++ b') ∧
      escapeMeta a = some a' ∧ escapeMeta b = some b' ∧ parseLiteral pico8 lit = some v := by
  have hq : ∀ (x y : List Nat), esc (x ++ 34 :: y) = esc x ++ 34 :: esc y := by
    intro x y
    induction x with
    | nil => exact esc_append_ne (u := [34]) (by simp) y
    | cons c x ih =>
      rw [List.cons_append, esc, ih]
      have hh : (esc x ++ 34 :: esc y).head? = some 93 ↔ (esc x).head? = some 93 := by
        cases esc x <;> simp
      conv => rhs; rw [esc]
      by_cases h : c = 93 ∧ (esc x).head? = some 93
      · rw [if_pos ⟨h.1, hh.mpr h.2⟩, if_pos h, List.append_assoc]
      · rw [if_neg (fun e => h ⟨e.1, hh.mp e.2⟩), if_neg h]; rfl
  refine ⟨esc a, 34 :: (esc (litParts isDig useCtrl 34 v) ++ [34]), esc b, ?_, escapeLoop_eq _ _ (Nat.le_refl _),
    escapeLoop_eq _ _ (Nat.le_refl _), ?_⟩
  · rw [escapeMeta, escapeLoop_eq _ _ (Nat.le_refl _)]
    unfold formatQuoted
    simp only [Option.getD_some, List.append_assoc, List.cons_append, List.nil_append]
    rw [hq, hq]
  · have := parse_esc_litParts hd (u := useCtrl) (p := pico8) (q := 34) (.inl rfl) v
    unfold parseLiteral
    simpa using this

/-- `"a]]]"` as the title. -/
example : escapeMeta (asc "pod,title=\"a]]]\"") = some (asc "pod,title=\"a]\\93]\"") := by decide +kernel

end Verif.PtFile
