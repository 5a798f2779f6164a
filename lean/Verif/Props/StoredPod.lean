import Verif.StoredMeta
import Verif.P64Lemmas
/-!
# C67: stored pods

A pod that `write_pod` stores, with whatever options, is read back by `read_pod` as the same pod: its strings may hold any bytes (also the
bytes that mark compressed userdata, and those that mark LZ4 and base64), and its userdata are kept whether they are compressed or not.
-/
namespace Verif.Stored
open Verif.Pxu (UD)
open Verif.PodText
open Verif.LuaStr (encode decode)

variable {F : Type} [DecidableEq F] {fl : Floats F} {isDig : Nat → Bool} {o : Opts}

theorem b64_lenient {data : List Nat} (h : ∀ b ∈ data, b < 256) : P64.b64DecodeLenient (b64Encode data) = some data := by
  have := P64.lenient_lines (c := b64Encode data) (cs := []) h (by simp)
  simpa using this

theorem writePod_eq {v : Val F} {ds : List (Option (List Nat))} {t value : List Nat} (h2 : (udsVal v).mapM (handle o isDig) = some ds)
    (h3 : encode (fmtVal fl (fmtStr isDig) (placeholder o isDig) v) = some t) (h4 : splice (ds.filterMap id) 0 t = some value) :
    writePod fl isDig o v = (if o.compress then packLz4 value else some value).bind fun p =>
      some (if o.useBase64 then b64Prefix ++ b64Encode p else p) := by
  unfold writePod
  simp only [h2, h3, h4, Option.bind_eq_bind, Option.bind_some]
  split <;> rfl

theorem readPod_eq {depth : Nat} {q p value t : List Nat} {us : List UD}
    (h1 : (if b64Prefix.isPrefixOf q then P64.b64DecodeLenient (q.drop 4) else some q) = some p)
    (h2 : (if lz4Prefix.isPrefixOf p then unpackLz4 p else some p) = some value) (h3 : unsplice value.length 0 value = some (us, t)) :
    readPod fl (depth + 1) q = parsePod fl (fun s => (encode s).bind (readPod fl depth)) us (decode t) := by
  have : readPod fl (depth + 1) q = (if b64Prefix.isPrefixOf q then P64.b64DecodeLenient (q.drop 4) else some q).bind fun p =>
      (if lz4Prefix.isPrefixOf p then unpackLz4 p else some p).bind fun value => (unsplice value.length 0 value).bind fun x =>
        parsePod fl (fun s => (encode s).bind (readPod fl depth)) x.1 (decode x.2) := by
    rw [readPod]
    simp only [Option.bind_eq_bind]
    split
    · congr 1
      funext p
      split <;> rfl
    · simp only [Option.bind_some]
      split <;> rfl
  rw [this, h1, Option.bind_some, h2, Option.bind_some, h3, Option.bind_some]

/-- A pod that can be stored with the options `o`. -/
def Fits (fl : Floats F) (o : Opts) (v : Val F) : Prop := v.Ok fl ∧ ValBytes (fun u => o.usePxu = true → Storable o.runtime u) v

/-- **C67.** What `write_pod` writes for a pod are bytes, and `read_pod` makes the same pod of them, with all options. -/
theorem C67_roundtrip (hd : AsciiDig isDig) (ha : AsciiFloats fl) {v : Val F} (hv : Fits fl o v) {bytes : List Nat}
    (h : writePod fl isDig o v = some bytes) (depth : Nat) : (∀ b ∈ bytes, b < 256) ∧ readPod fl (depth + 1) bytes = some v := by
  obtain ⟨value, h1, ⟨c, r, hc, c1, c2⟩, ⟨ds, t, h2, h3, h4⟩, us, t', h5, h6⟩ := core (o := o) hd ha hv.1 hv.2
  rw [writePod_eq h2 h3 h4, Option.bind_eq_some_iff] at h
  obtain ⟨packed, hp, h⟩ := h
  rw [Option.some.injEq] at h
  have n1 : b64Prefix.isPrefixOf value = false := by
    rw [hc]; simp only [b64Prefix, List.isPrefixOf, beq_eq_false_iff_ne, Bool.and_eq_false_iff]; exact .inl (Ne.symm c1)
  have n2 : lz4Prefix.isPrefixOf value = false := by
    rw [hc]; simp only [lz4Prefix, List.isPrefixOf, beq_eq_false_iff_ne, Bool.and_eq_false_iff]; exact .inl (Ne.symm c2)
  have n3 : ∀ q, lz4Prefix <+: q → b64Prefix.isPrefixOf q = false := by
    rintro q ⟨w, rfl⟩; rfl
  -- the bytes before base64
  have hpk : (∀ b ∈ packed, b < 256) ∧ b64Prefix.isPrefixOf packed = false ∧ (if lz4Prefix.isPrefixOf packed then unpackLz4 packed else some packed) = some value := by
    split at hp
    · obtain ⟨k1, -, k2⟩ := unpack_pack h1 hp
      refine ⟨k1, ?_⟩
      rcases k2 with rfl | ⟨k2, k3⟩
      · exact ⟨n1, by rw [n2]; rfl⟩
      · exact ⟨n3 _ k2, by rw [List.isPrefixOf_iff_prefix.2 k2]; exact k3⟩
    · cases hp
      exact ⟨h1, n1, by rw [n2]; rfl⟩
  obtain ⟨k1, k2, k3⟩ := hpk
  have body : ∀ q, (if b64Prefix.isPrefixOf q then P64.b64DecodeLenient (q.drop 4) else some q) = some packed → readPod fl (depth + 1) q = some v := by
    intro q hq
    rw [readPod_eq hq k3 h5, h6]
  cases hb : o.useBase64 with
  | false =>
    rw [hb] at h
    subst h
    exact ⟨k1, body _ (by simp only [Bool.false_eq_true, if_false, k2])⟩
  | true =>
    rw [hb] at h
    subst h
    refine ⟨?_, body _ ?_⟩
    · intro b hb
      rcases List.mem_append.1 hb with hb | hb
      · have : ∀ b ∈ b64Prefix, b < 256 := by decide
        exact this b hb
      · have := (P64.alpha_plain (P64.b64Encode_alpha k1 b hb)).2; omega
    · exact b64_lenient k1

/-- **C67.** `write_pod` fails for none of these pods, unless LZ4 is asked for and a size does not fit into 32 bits. -/
theorem C67_written (hd : AsciiDig isDig) (ha : AsciiFloats fl) {v : Val F} (hv : Fits fl o v) :
    ∃ raw, writePod fl isDig { o with compress := false, useBase64 := false } v = some raw ∧
      (writePod fl isDig o v = none → o.compress = true ∧ (2 ^ 32 ≤ raw.length ∨ ∃ c, Lz4.compress false raw = some c ∧ 2 ^ 32 ≤ c.length)) := by
  obtain ⟨value, h1, -, ⟨ds, t, h2, h3, h4⟩, -⟩ := core (o := o) hd ha hv.1 hv.2
  refine ⟨value, ?_, ?_⟩
  · exact writePod_eq (o := { o with compress := false, useBase64 := false }) h2 h3 h4
  · intro h
    rw [writePod_eq h2 h3 h4, Option.bind_eq_none_iff] at h
    cases hc : o.compress with
    | false => rw [hc] at h; cases h value rfl
    | true =>
      rw [hc] at h
      refine ⟨rfl, pack_none h1 ?_⟩
      cases hp : packLz4 value with
      | none => rfl
      | some p => cases h p hp

/-- **C67.** LZ4 is only used where it makes the pod shorter. -/
theorem C67_not_longer (hd : AsciiDig isDig) (ha : AsciiFloats fl) {v : Val F} (hv : Fits fl o v) {raw bytes : List Nat} (hb : o.useBase64 = false)
    (h : writePod fl isDig { o with compress := false } v = some raw) (h' : writePod fl isDig o v = some bytes) : bytes.length ≤ raw.length := by
  obtain ⟨value, h1, -, ⟨ds, t, h2, h3, h4⟩, -⟩ := core (o := o) hd ha hv.1 hv.2
  have e : raw = value := by
    rw [writePod_eq (o := { o with compress := false }) h2 h3 h4] at h
    simp only [hb] at h
    exact (Option.some.inj h).symm
  subst e
  rw [writePod_eq h2 h3 h4, Option.bind_eq_some_iff, hb] at h'
  obtain ⟨p, hp, h'⟩ := h'
  cases h'
  split at hp
  · exact (unpack_pack h1 hp).2.1
  · cases hp; exact Nat.le_refl _

/-! ### Metadata -/

/-- Metadata that can be stored. -/
def MetaFits (fl : Floats F) (t : Items F) : Prop := t.Ok fl ∧ ItemsBytes (fun _ => True) t

/-- **C67.** Metadata can always be written; what is written can be told from what follows it in the file, and is read back with the same
entries.  Only an entry `pod_format`, or else `pod_type`, is moved to the front. -/
theorem C67_metadata (hd : AsciiDig isDig) (ha : AsciiFloats fl) {t : Items F} (ht : MetaFits fl t) :
    ∃ bytes t', writeMeta fl isDig t = some bytes ∧ (∀ b ∈ bytes, b < 256) ∧ PtFile.GoodMeta bytes ∧
      (∀ depth, readMeta fl depth bytes = some (.table t')) ∧ (entries t').Perm (entries t) ∧
      (.str (txt "pod_format") ∉ t.keys → .str (txt "pod_type") ∉ t.keys → t' = t) ∧
      (PtFile.asc "pod_format=\"raw\"" <+: bytes ↔ (.str (txt "pod_format"), .str (txt "raw")) ∈ entries t) := by
  obtain ⟨bytes, text, h1, h2, h3, h4, h5, h6, h7⟩ := meta_core hd ha ht.1 ht.2
  refine ⟨bytes, metaOrder t, h1, h4, h5, ?_, ?_, ?_, ?_⟩
  · intro depth
    unfold readMeta
    rw [h2, h7]
  · unfold metaOrder
    split
    · rename_i h; exact perm_lookup h
    · split
      · rename_i h; exact perm_lookup h
      · exact .refl _
  · intro n1 n2
    have no : ∀ {key : List Nat}, (.str key : Key F) ∉ t.keys → lookupItem key t = none := by
      intro key hk
      cases h : lookupItem key t with
      | none => rfl
      | some v => exact absurd (mem_keys ((lookup_iff ht.1).1 h)) hk
    exact order_none (by unfold hasFront; rw [no n1, no n2]; rfl)
  · rw [raw_bytes h2 h3 (by decide), h6]
    exact raw_text hd ht.1 ht.2

/-! ### Files -/

/-- **C67.** A file of a pod and its metadata: both are read back from the data of the file. -/
theorem C67_file (hd : AsciiDig isDig) (ha : AsciiFloats fl) {t : Items F} (ht : MetaFits fl t)
    (hraw : (.str (txt "pod_format"), .str (txt "raw")) ∉ entries t) {v : Val F} (hv : Fits fl o v) {md pay : List Nat}
    (h1 : writeMeta fl isDig t = some md) (h2 : writePod fl isDig o v = some pay) (depth : Nat) :
    PtFile.isRaw (PtFile.asc "--[[" ++ md ++ PtFile.asc "]]" ++ pay) = false ∧
    readPod fl (depth + 1) (PtFile.rawPayload (PtFile.asc "--[[" ++ md ++ PtFile.asc "]]" ++ pay)) = some v ∧
    ∃ t', (PtFile.rawMeta (PtFile.asc "--[[" ++ md ++ PtFile.asc "]]" ++ pay)).bind (readMeta fl depth) = some (.table t') ∧
      (entries t').Perm (entries t) := by
  obtain ⟨bytes, t', k1, -, k3, k4, k5, -, k7⟩ := C67_metadata hd ha ht
  rw [h1] at k1; cases k1
  obtain ⟨r1, r2, r3⟩ := PtFile.C49_read k3 pay
  refine ⟨?_, ?_, t', ?_, k5⟩
  · rw [Bool.eq_false_iff]
    exact fun h => hraw (k7.1 (r3.1 h))
  · rw [r2]
    exact (C67_roundtrip hd ha hv h2 depth).2
  · rw [r1, Option.bind_some, k4]

/-- Metadata whose entry `pod_format`, or else `pod_type`, is the first. -/
def MetaFirst (t : Items F) : Prop :=
  (.str (txt "pod_format") ∉ t.keys ∨ t.keys.head? = some (.str (txt "pod_format"))) ∧
  (.str (txt "pod_format") ∈ t.keys ∨ .str (txt "pod_type") ∉ t.keys ∨ t.keys.head? = some (.str (txt "pod_type")))

theorem erase_first {key : List Nat} {t : Items F} (h : t.keys.head? = some (.str key)) : ∃ v, lookupItem key t = some v ∧
    .cons (.str key) v (eraseItem key t) = t := by
  cases t with
  | nil => cases h
  | cons k v r =>
    simp only [Items.keys, List.head?_cons, Option.some.injEq] at h
    subst h
    exact ⟨v, by rw [lookupItem, if_pos rfl], by rw [eraseItem, if_pos rfl]⟩

theorem lookup_keys {key : List Nat} {v : Val F} : ∀ {t : Items F}, lookupItem key t = some v → .str key ∈ t.keys
  | .nil, h => by cases h
  | .cons k w r, h => by
    rw [lookupItem] at h
    split at h
    · rename_i hk; subst hk; exact List.mem_cons_self
    · exact List.mem_cons_of_mem _ (lookup_keys h)

theorem order_first {t : Items F} (h : MetaFirst t) : metaOrder t = t := by
  obtain ⟨h1, h2⟩ := h
  unfold metaOrder
  cases e1 : lookupItem (txt "pod_format") t with
  | some v =>
    rcases h1 with h1 | h1
    · exact absurd (lookup_keys e1) h1
    · obtain ⟨v', k1, k2⟩ := erase_first h1
      rw [e1] at k1; cases k1
      exact k2
  | none =>
    cases e2 : lookupItem (txt "pod_type") t with
    | some v =>
      rcases h2 with h2 | h2 | h2
      · rcases h1 with h1 | h1
        · exact absurd h2 h1
        · obtain ⟨v', k1, -⟩ := erase_first h1
          rw [e1] at k1; cases k1
      · exact absurd (lookup_keys e2) h2
      · obtain ⟨v', k1, k2⟩ := erase_first h2
        rw [e2] at k1; cases k1
        exact k2
    | none => rfl

open Classical in
/-- The formats of metadata and of pods, for `PicotronFile` (`Verif.PtFile`). -/
noncomputable def codec (fl : Floats F) (isDig : Nat → Bool) (o : Opts) : PtFile.Codec {t : Items F // MetaFits fl t ∧ MetaFirst t}
    {v : Val F // Fits fl o v ∧ (writePod fl isDig o v).isSome} where
  fmtMeta t := (writeMeta fl isDig t.1).getD []
  parseMeta b := match readMeta fl 1 b with
    | some (.table t) => if h : MetaFits fl t ∧ MetaFirst t then some ⟨t, h⟩ else none
    | _ => none
  writePod v := (writePod fl isDig o v.1).getD []
  readPod b := match readPod fl 1 b with
    | some v => if h : Fits fl o v ∧ (writePod fl isDig o v).isSome then some ⟨v, h⟩ else none
    | none => none

/-- **C67.** These formats are as C49 assumes: hence what C49 says of sequences of operations on files holds of real files. -/
theorem C67_codec (hd : AsciiDig isDig) (ha : AsciiFloats fl) (o : Opts) : (codec fl isDig o).Good where
  md t := by
    obtain ⟨bytes, text, h1, h2, -, -, -, -, h7⟩ := meta_core hd ha t.2.1.1 t.2.1.2
    have : readMeta fl 1 bytes = some (.table t.1) := by
      unfold readMeta
      rw [h2, h7, order_first t.2.2]
    simp only [codec, h1, Option.getD_some, this]
    rw [dif_pos t.2]
  good t := by
    obtain ⟨bytes, text, h1, -, -, -, h5, -⟩ := meta_core hd ha t.2.1.1 t.2.1.2
    simp only [codec, h1, Option.getD_some]
    exact h5
  pod v := by
    obtain ⟨bytes, hb⟩ := Option.isSome_iff_exists.1 v.2.2
    have := (C67_roundtrip hd ha v.2.1 hb 0).2
    simp only [codec, hb, Option.getD_some, this]
    rw [dif_pos v.2]

/-! ### Cases meeting the hypotheses -/

theorem halves_ascii : AsciiFloats halves := by
  intro f c hc
  simp only [halves] at hc
  rcases List.mem_append.1 hc with h | h
  · have := natDigits_digit _ c h; omega
  · simp only [List.mem_cons, List.not_mem_nil, or_false] at h
    split at h <;> omega

theorem from_ascii {s : List Nat} (h : ∀ c ∈ s, c < 128) : FromBytes s := by
  refine ⟨s, fun b hb => by have := h b hb; omega, ?_⟩
  induction s with
  | nil => rfl
  | cons c s ih => rw [decode_ascii (h c (by simp)), ih fun x hx => h x (by simp [hx])]

/-- A string with all the marks in it, and a userdata that is compressed. -/
def stored : Val Int := .table (.cons (.int 1) (.str (txt "lz4" ++ [0] ++ txt "b64:pxu" ++ [0, 200]))
  (.cons (.str (txt "img")) (.ud ⟨txt "u8", 8, 2, txt "00000000000000000101010101010107"⟩) .nil))

example : Fits halves ⟨true, true, true, 99⟩ stored := by
  constructor
  · unfold stored
    simp only [Val.Ok, Items.Ok, Key.Ok, Val.isNil, Items.keys, IntOk]
    refine ⟨by decide, trivial, trivial, by decide, trivial, trivial, by decide, by simp, trivial⟩
  · unfold stored
    simp only [ValBytes, ItemsBytes, KeyBytes]
    refine ⟨trivial, ⟨[108, 122, 52, 0, 98, 54, 52, 58, 112, 120, 117, 0, 0xc3, 0x88], by decide, by decide +kernel⟩, from_ascii (by decide),
      ⟨from_ascii (by decide), from_ascii (by decide), fun _ => .inr (.inr ⟨1, 8, 2, .inl ⟨rfl, rfl⟩, rfl, rfl, by decide, by decide, by decide, by decide⟩)⟩, trivial⟩

/-- The userdata is put between the text, and the text has no byte 0. -/
example : writePod halves isDigit ⟨false, true, false, 99⟩ stored =
    some (txt "{\"lz4\\0b64:pxu\\0" ++ [0xc3, 0x88] ++ txt "\",img=" ++
      [0x70, 0x78, 0x75, 0, 0x43, 0x20, 8, 2, 4, 0x70, 0x61, 7] ++ txt "}") := by decide +kernel

/-- All of it in base64. -/
example : (writePod halves isDigit ⟨true, true, true, 99⟩ stored).isSome = true := by decide +kernel

/-- Metadata with brackets in a string; the type comes first. -/
example : writeMeta halves isDigit (.cons (.str (txt "title")) (.str (txt "a]]b")) (.cons (.str (txt "pod_type")) (.str (txt "gfx")) .nil)) =
    some (PtFile.asc "pod_type=\"gfx\",title=\"a\\93]b\"") := by decide +kernel

example : MetaFits halves (.cons (.str (txt "title")) (.str (txt "a]]b")) (.cons (.str (txt "pod_type")) (.str (txt "gfx")) .nil)) := by
  refine ⟨?_, ?_⟩
  · simp only [Items.Ok, Val.Ok, Key.Ok, Val.isNil, Items.keys]
    exact ⟨trivial, trivial, trivial, by decide, trivial, trivial, trivial, by simp, trivial⟩
  · simp only [ItemsBytes, ValBytes, KeyBytes]
    exact ⟨from_ascii (by decide), from_ascii (by decide), from_ascii (by decide), from_ascii (by decide), trivial⟩

/-! ### Counterexamples -/

/-- Userdata with upper-case digits, which Picotron reads as well, is not the same any more: the text is compressed. -/
theorem C67_digits_counterexample :
    ∃ bytes, writePod halves isDigit ⟨false, true, false, 99⟩ (.ud ⟨txt "u8", 4, 0, txt "ABABABAB"⟩) = some bytes ∧
      (unsplice bytes.length 0 bytes).map (·.1) = some [⟨txt "u8", 4, 0, txt "abababab"⟩] := by
  exact ⟨[112, 120, 117, 0, 3, 32, 4, 4, 63, 171], by decide +kernel, by decide +kernel⟩

end Verif.Stored
